import Verif.Lemmas.Ranges
import Verif.Lemmas.Core
import Verif.Spec.DataArgs

/-! Ranges of samples and the batches they are processed in. -/

set_option linter.unusedSectionVars false

namespace Hpelm
open Spec

/-- The range of a list. -/
def rowsIn {α : Type} (l : List α) (istart : Nat) : Option Nat → List α
  | none => l.drop istart
  | some c => (l.drop istart).take c

theorem samplesIn_rowsIn {K : Type} (M : Mat K) (istart : Nat) (ic : Option Nat) : samplesIn M istart ic = ⟨M.cols, rowsIn M.rows istart ic⟩ := by
  cases ic <;> rfl

theorem rowsIn_map {α β : Type} (f : α → β) (l : List α) (s : Nat) (ic : Option Nat) : rowsIn (l.map f) s ic = (rowsIn l s ic).map f := by
  cases ic <;> simp [rowsIn, List.map_drop, List.map_take]

theorem rowsIn_zip {α β : Type} (l : List α) (r : List β) (s : Nat) (ic : Option Nat) :
    (rowsIn l s ic).zip (rowsIn r s ic) = rowsIn (l.zip r) s ic := by
  cases ic <;> simp [rowsIn, List.zip, List.drop_zipWith, List.take_zipWith]

theorem rowsIn_length {α : Type} (l : List α) (s : Nat) (ic : Option Nat) :
    ((rowsIn l s ic).length : Int) = max 0 (rangeCount l.length s (ic.map (↑))) := by
  cases ic <;> simp [rowsIn, rangeCount] <;> omega

theorem rowsIn_length_congr {α β : Type} {l : List α} {r : List β} (h : l.length = r.length) (s : Nat) (ic : Option Nat) :
    (rowsIn l s ic).length = (rowsIn r s ic).length := by
  cases ic <;> simp [rowsIn, h]

theorem mem_rowsIn {α : Type} {l : List α} {s : Nat} {ic : Option Nat} {x : α} (h : x ∈ rowsIn l s ic) : x ∈ l := by
  cases ic with
  | none => exact List.mem_of_mem_drop h
  | some c => exact List.mem_of_mem_drop (List.mem_of_mem_take h)

/-- The batches of the range of a data set of `N` samples. -/
theorem range_batches {batch : Int} (hb : 0 < batch) (N s : Nat) (ic : Option Nat) :
    ∃ bs, hBatches batch s (rangeCount N s (ic.map (↑))) = .ok bs ∧
      (∀ (α : Type) (l : List α), l.length = N → bs.flatMap (fun b => pySlice l b.1 b.2) = rowsIn l s ic) ∧
      (∀ b ∈ bs, (s : Int) ≤ b.1 ∧ b.1 < b.2 ∧ b.2 ≤ s + rangeCount N s (ic.map (↑)) ∧ b.2 ≤ N ∧ b.2 - b.1 ≤ batch) ∧
      (0 < rangeCount N s (ic.map (↑)) → bs ≠ []) := by
  by_cases hc : 0 ≤ rangeCount N s (ic.map (↑))
  · obtain ⟨bs, h1, h2, h3, h4⟩ := hBatches_spec hb (Int.natCast_nonneg s) hc
    refine ⟨bs, h1, ?_, ?_, h4⟩
    · intro α l hl
      rw [h2]
      cases ic with
      | none =>
        simp only [rangeCount, Option.map_none, Int.toNat_natCast, rowsIn]
        rw [List.take_of_length_le]
        simp only [List.length_drop]
        omega
      | some c =>
        simp only [rangeCount, Option.map_some, Int.toNat_natCast, rowsIn]
        rw [List.take_eq_take_iff]
        simp only [List.length_drop]
        omega
    · intro b hbm
      obtain ⟨a1, a2, a3, a4⟩ := h3 b hbm
      have := rangeCount_le N s (ic.map (↑))
      exact ⟨a1, a2, a3, by omega, a4⟩
  · have hlt : N < s := by
      cases ic <;> simp [rangeCount] at hc <;> omega
    refine ⟨[], hBatches_empty hb (by omega), ?_, by simp, fun h => absurd h (by omega)⟩
    intro α l hl
    have : l.drop s = [] := List.drop_eq_nil_iff.2 (by omega)
    cases ic <;> simp [rowsIn, this]

variable {K : Type} [Field K] [LinearOrder K]

theorem zipWith_add_map (c : Nat) (f g : Nat → K) :
    List.zipWith (· + ·) ((List.range c).map f) ((List.range c).map g) = (List.range c).map fun j => f j + g j := by
  rw [List.zipWith_map, List.zipWith_self]

/-- The class counts collected batch by batch are those of the whole range. -/
theorem batchColSums_eq (T : Mat K) (bs : List (Int × Int)) :
    batchColSums T.cols T bs = colSums ⟨T.cols, bs.flatMap fun b => pySlice T.rows b.1 b.2⟩ := by
  unfold batchColSums
  have hg : ∀ (f : Nat → K), bs.foldl (fun ns b => List.zipWith (· + ·) ns (colSums (T.slice b.1 b.2))) ((List.range T.cols).map f)
      = (List.range T.cols).map fun j => f j + ((bs.flatMap fun b => pySlice T.rows b.1 b.2).map fun r => r.getD j 0).sum := by
    induction bs with
    | nil => intro f; simp
    | cons b bs ih =>
      intro f
      rw [List.foldl_cons]
      have : colSums (T.slice b.1 b.2) = (List.range T.cols).map fun j => ((pySlice T.rows b.1 b.2).map fun r => r.getD j 0).sum := rfl
      rw [this, zipWith_add_map, ih]
      apply List.map_congr_left
      intro j _
      rw [List.flatMap_cons, List.map_append, List.sum_append, add_assoc]
  have h0 : List.replicate T.cols (0 : K) = (List.range T.cols).map fun _ => 0 := by simp
  rw [h0, hg]
  unfold colSums
  apply List.map_congr_left
  intro j _
  simp

theorem cutBatches_flat (X T : Mat K) (bs : List (Int × Int)) :
    (cutBatches X T bs).flatMap (·.1) = bs.flatMap (fun b => pySlice X.rows b.1 b.2) ∧
    (cutBatches X T bs).flatMap (·.2) = bs.flatMap (fun b => pySlice T.rows b.1 b.2) := by
  unfold cutBatches
  constructor <;> rw [List.flatMap_map]

theorem feed_foldlM (env : Env K) (ic oc : Nat) (l : List (List (List K) × List (List K))) (e : ELM K) :
    e.feed env ic oc l = (l.map fun p => ((⟨ic, p.1⟩ : Mat K), (⟨oc, p.2⟩ : Mat K))).foldlM (init := e) (fun e b => do
      let w ← batchWeights e.classification e.wc b.2
      let n ← e.nnet.addBatch env b.1 b.2 w
      pure { e with nnet := n }) := by
  induction l generalizing e with
  | nil => rfl
  | cons p l ih =>
    obtain ⟨Xb, Tb⟩ := p
    rw [List.map_cons, List.foldlM_cons]
    unfold ELM.feed
    simp only
    cases batchWeights e.classification e.wc ⟨oc, Tb⟩ with
    | error x => rfl
    | ok w =>
      simp only [bind, Except.bind]
      cases e.nnet.addBatch env ⟨ic, Xb⟩ ⟨oc, Tb⟩ w with
      | error x => rfl
      | ok n => exact ih _

/-- `add_data` of a range without files, in one step. -/
theorem hAddData_feed {env : Env K} {fs : Files K} {e : ELM K} {fX fT : DataArg K} {X T : Mat K} (s : Nat) (ic : Option Nat)
    (hne : e.nnet.neurons ≠ []) (hc : checkBoth fs e.nnet fX fT = .ok (X, T)) {bs} (hTc : T.cols = e.nnet.outputs)
    (hbs : hBatches e.batch s (rangeCount X.nrows s (ic.map (↑))) = .ok bs)
    (hfl : bs.flatMap (fun b => pySlice T.rows b.1 b.2) = rowsIn T.rows s ic) :
    e.hAddData env fs fX fT s (ic.map (↑)) none none =
      ((e.autoWc env (colSums (samplesIn T s ic))).feed env X.cols T.cols (cutBatches X T bs)).map fun e => (e, fs) := by
  unfold ELM.hAddData
  have h1 : pyAssert (!e.nnet.neurons.isEmpty) = .ok () := by
    unfold pyAssert
    rw [if_pos]
    simpa using hne
  simp only [h1, hc, bind, Except.bind, prepareFHH, pure, Except.pure]
  rw [hbs]
  simp only
  rw [← hTc, batchColSums_eq, hfl, samplesIn_rowsIn]
  cases ((e.autoWc env (colSums ⟨T.cols, rowsIn T.rows s ic⟩)).feed env X.cols T.cols (cutBatches X T bs)) with
  | error x => rfl
  | ok e' => rfl

/-- Without files, feeding a non-empty range is feeding its samples at once. -/
theorem hAddData_eq {env : Env K} {fs : Files K} {e : ELM K} {fX fT : DataArg K} {X T : Mat K} (s : Nat) (ic : Option Nat)
    (hb : 0 < e.batch) (hne : e.nnet.neurons ≠ []) (hc : checkBoth fs e.nnet fX fT = .ok (X, T))
    (hn : 0 < (samplesIn X s ic).nrows) (hok : AutoOk env e (samplesIn T s ic)) :
    e.hAddData env fs fX fT s (ic.map (↑)) none none =
      (e.addData env (samplesIn X s ic) (samplesIn T s ic)).map fun e => (e, fs) := by
  obtain ⟨_, hTc, hN⟩ := checkBoth_ok hc
  obtain ⟨bs, h1, h2, h3, h4⟩ := range_batches hb X.nrows s ic
  have hT : T.rows.length = X.nrows := hN.symm
  rw [hAddData_feed s ic hne hc hTc h1 (h2 _ _ hT)]
  rw [samplesIn_rowsIn] at hn
  have hn' : 0 < (rowsIn X.rows s ic).length := hn
  have hlen := rowsIn_length X.rows s ic
  obtain ⟨f1, f2⟩ := cutBatches_flat X T bs
  rw [h2 _ _ rfl] at f1
  rw [h2 _ _ hT] at f2
  have hN' : (samplesIn X s ic).nrows = (samplesIn T s ic).nrows := by
    rw [samplesIn_rowsIn, samplesIn_rowsIn]
    exact rowsIn_length_congr hN s ic
  have hbsne : bs ≠ [] := h4 (by have : X.rows.length = X.nrows := rfl; rw [this] at hlen; omega)
  rw [addData_wts hb (by rw [samplesIn_rowsIn]; exact hn') hN' hok]
  have hw := batchWeights_wts hok.1 hok.2
  have := feed_eq_addBatch env X.cols T.cols (cutBatches X T bs) (e.autoWc env (colSums (samplesIn T s ic)))
    (by unfold cutBatches; simpa using hbsne)
    (by
      intro b hbm
      obtain ⟨c, hcm, rfl⟩ := List.mem_map.1 hbm
      obtain ⟨a1, a2, a3, a4, a5⟩ := h3 c hcm
      have l1 := pySlice_length X.rows (a := c.1) (b := c.2) (by omega) (by omega) (by exact a4)
      have l2 := pySlice_length T.rows (a := c.1) (b := c.2) (by omega) (by omega) (by omega)
      simp only
      omega)
    (by
      rw [autoWc_cls, f2]
      intro h
      have := hok.1 h
      rw [samplesIn_rowsIn] at this
      exact this)
    (w := wts e.classification (e.autoWc env (colSums (samplesIn T s ic))).wc (samplesIn T s ic))
    (by
      rw [autoWc_cls, f2]
      rw [samplesIn_rowsIn] at hw ⊢
      exact hw)
  rw [this, f1, f2]
  have hn2 : (e.autoWc env (colSums (samplesIn T s ic))).nnet = e.nnet := by unfold ELM.autoWc; split <;> rfl
  rw [hn2, ← samplesIn_rowsIn, ← samplesIn_rowsIn]

/-- The batches follow each other without gaps, from `a` on. -/
def Contig : Int → List (Int × Int) → Prop
  | _, [] => True
  | a, b :: bs => b.1 = a ∧ Contig b.2 bs

theorem hBatches_contig {batch istart icount : Int} (hb : 0 < batch) {bs} (h : hBatches batch istart icount = .ok bs) : Contig istart bs := by
  unfold hBatches at h
  rw [if_neg (by omega)] at h
  injection h with h
  subst h
  obtain ⟨n, hn⟩ : ∃ n, n = (ceilDiv icount batch).toNat := ⟨_, rfl⟩
  have hsp := (ceilDiv_spec icount batch hb).1
  have key : ∀ k j : Nat, j + k = n → Contig ((j : Int) * batch + istart) ((List.range' j k).map (batchBounds batch istart icount)) := by
    intro k
    induction k with
    | zero => intro j _; trivial
    | succ k ih =>
      intro j hj
      rw [List.range'_succ, List.map_cons]
      refine ⟨rfl, ?_⟩
      rcases Nat.eq_zero_or_pos k with rfl | hk
      · trivial
      · have hlt : ((j : Int) + 1) ≤ ceilDiv icount batch - 1 := by omega
        have : ((j : Int) + 1) * batch ≤ (ceilDiv icount batch - 1) * batch := by nlinarith
        have e1 : (batchBounds batch istart icount j).2 = ((j + 1 : Nat) : Int) * batch + istart := by
          simp only [batchBounds]
          push_cast
          omega
        rw [e1]
        exact ih (j + 1) (by omega)
  have := key n 0 (by omega)
  rw [← hn, List.range_eq_range']
  simpa using this

theorem nrm_eq {n i : Int} (h0 : 0 ≤ i) (h1 : i ≤ n) : (if i < 0 then max 0 (i + n) else min i n).toNat = i.toNat := by
  rw [if_neg (by omega), min_eq_left h1]

/-- Writing the outputs of consecutive batches one after the other. -/
theorem batchLoop_eq {f : Mat K → Except PyErr (Mat K)} {g : List K → List K} {X : Mat K} {d s : Nat}
    (hf : ∀ rows, f ⟨X.cols, rows⟩ = .ok ⟨d, rows.map g⟩) (bs : List (Int × Int)) :
    ∀ (a : Int) (dn rest : List (List K)), Contig a bs → (dn.length : Int) = a - s → (∀ b ∈ bs, b.1 < b.2 ∧ b.2 ≤ X.nrows) →
      (bs.flatMap fun b => pySlice X.rows b.1 b.2).length ≤ rest.length →
      batchLoop f (fun b => (b.1 - s, b.2 - s)) X bs ⟨d, dn ++ rest⟩ =
        .ok ⟨d, dn ++ (bs.flatMap fun b => pySlice X.rows b.1 b.2).map g ++ rest.drop (bs.flatMap fun b => pySlice X.rows b.1 b.2).length⟩ := by
  induction bs with
  | nil => intro a dn rest _ _ _ _; simp [batchLoop]
  | cons b bs ih =>
    intro a dn rest hc hl hbd hlen
    obtain ⟨hb1, hc⟩ := hc
    obtain ⟨h1, h2⟩ := hbd b List.mem_cons_self
    rw [List.flatMap_cons, List.length_append] at hlen
    have hp : ((pySlice X.rows b.1 b.2).length : Int) = b.2 - b.1 := pySlice_length X.rows (by omega) h1.le h2
    unfold batchLoop
    have : X.slice b.1 b.2 = ⟨X.cols, pySlice X.rows b.1 b.2⟩ := rfl
    rw [this, hf]
    simp only [bind, Except.bind]
    have hass : assignRows ⟨d, dn ++ rest⟩ (b.1 - s) (b.2 - s) ⟨d, (pySlice X.rows b.1 b.2).map g⟩ =
        .ok ⟨d, (dn ++ (pySlice X.rows b.1 b.2).map g) ++ rest.drop (pySlice X.rows b.1 b.2).length⟩ := by
      unfold assignRows
      simp only [Mat.nrows_mk]
      have hn : ((dn ++ rest).length : Int) = dn.length + rest.length := by simp
      have e1 : (if b.1 - (s : Int) < 0 then max 0 (b.1 - (s : Int) + ((dn ++ rest).length : Int))
          else min (b.1 - (s : Int)) ((dn ++ rest).length : Int)).toNat = dn.length := by
        rw [nrm_eq (by omega) (by omega)]; omega
      have e2 : (if b.2 - (s : Int) < 0 then max 0 (b.2 - (s : Int) + ((dn ++ rest).length : Int))
          else min (b.2 - (s : Int)) ((dn ++ rest).length : Int)).toNat = dn.length + (pySlice X.rows b.1 b.2).length := by
        rw [nrm_eq (by omega) (by omega)]; omega
      simp only [e1, e2]
      rw [if_neg (by simp), max_eq_right (by omega), if_pos (by simp)]
      rw [List.take_left, ← List.drop_drop, List.drop_left]
    rw [hass]
    simp only
    rw [ih b.2 (dn ++ (pySlice X.rows b.1 b.2).map g) _ hc (by simp; omega) (fun b' hb' => hbd b' (List.mem_cons_of_mem _ hb'))
      (by rw [List.length_drop]; omega)]
    simp [List.drop_drop, List.append_assoc]

end Hpelm
