import Verif.Model.Elm
import Verif.Lemmas.Slfn
import Verif.Spec.Data
import Mathlib.Algebra.Order.BigOperators.Group.List
import Mathlib.Data.Nat.Cast.Basic

/-! Helper lemmas about batches: `array_split`, class weights, feeding. -/

namespace Hpelm

theorem splitSizes_flatten {α : Type} (ss : List Nat) (l : List α) (h : ss.sum = l.length) :
    (splitSizes ss l).flatten = l := by
  induction ss generalizing l with
  | nil => simp at h; simp [splitSizes]; exact List.length_eq_zero_iff.1 h.symm
  | cons s ss ih =>
    simp only [List.sum_cons] at h
    simp only [splitSizes, List.flatten_cons]
    rw [ih _ (by simp; omega)]
    exact List.take_append_drop s l

theorem splitSizes_lengths {α : Type} (ss : List Nat) (l : List α) (h : ss.sum = l.length) :
    (splitSizes ss l).map List.length = ss := by
  induction ss generalizing l with
  | nil => rfl
  | cons s ss ih =>
    simp only [List.sum_cons] at h
    simp only [splitSizes, List.map_cons]
    rw [ih _ (by simp; omega)]
    simp; omega

theorem arraySplitSizes_sum (n k : Nat) (hk : 0 < k) : (arraySplitSizes n k).sum = n := by
  have h1 := Nat.mod_lt n hk
  have h2 := Nat.div_add_mod n k
  simp only [arraySplitSizes, List.sum_append, List.sum_replicate, nsmul_eq_mul, Nat.cast_id]
  have : k - n % k + n % k = k := by omega
  calc n % k * (n / k + 1) + (k - n % k) * (n / k)
      = (k - n % k + n % k) * (n / k) + n % k := by ring
    _ = k * (n / k) + n % k := by rw [this]
    _ = n := h2

theorem mem_arraySplitSizes {n k s : Nat} (h : s ∈ arraySplitSizes n k) :
    (s = n / k + 1 ∧ 0 < n % k) ∨ s = n / k := by
  simp only [arraySplitSizes, List.mem_append, List.mem_replicate] at h
  omega

theorem ceilDiv_spec (n b : Int) (hb : 0 < b) : (ceilDiv n b - 1) * b < n ∧ n ≤ ceilDiv n b * b := by
  unfold ceilDiv
  rw [Int.fdiv_eq_ediv_of_nonneg _ hb.le]
  have h1 := Int.mul_ediv_add_emod (-n) b
  have h2 := Int.emod_nonneg (-n) hb.ne'
  have h3 := Int.emod_lt_of_pos (-n) hb
  generalize (-n) / b = q at *
  generalize (-n) % b = r at *
  constructor <;> nlinarith

theorem ceilDiv_unique {n b c : Int} (hb : 0 < b) (h1 : (c - 1) * b < n) (h2 : n ≤ c * b) : ceilDiv n b = c := by
  obtain ⟨h3, h4⟩ := ceilDiv_spec n b hb
  have : (ceilDiv n b - 1) * b < c * b := by omega
  have h5 := lt_of_mul_lt_mul_right this hb.le
  have : (c - 1) * b < ceilDiv n b * b := by omega
  have h6 := lt_of_mul_lt_mul_right this hb.le
  omega

theorem ceilDiv_pos {n b : Int} (hb : 0 < b) (hn : 0 < n) : 0 < ceilDiv n b := by
  obtain ⟨h1, h2⟩ := ceilDiv_spec n b hb
  by_contra h
  have : ceilDiv n b * b ≤ 0 := mul_nonpos_of_nonpos_of_nonneg (by omega) hb.le
  omega

theorem ceilDiv_nonpos {n b : Int} (hb : 0 < b) (hn : n ≤ 0) : ceilDiv n b ≤ 0 := by
  obtain ⟨h1, h2⟩ := ceilDiv_spec n b hb
  by_contra h
  have : 0 ≤ (ceilDiv n b - 1) * b := mul_nonneg (by omega) hb.le
  omega

theorem ceilDiv_zero {b : Int} (hb : 0 < b) : ceilDiv 0 b = 0 := ceilDiv_unique hb (by nlinarith) (by simp)

/-- Sizes of the sections for `ceil(n / batch)` sections. -/
theorem section_sizes {n s : Nat} {b : Int} (hb : 0 < b) (hn : 0 < n)
    (h : s ∈ arraySplitSizes n (ceilDiv n b).toNat) : 0 < s ∧ (s : Int) ≤ b := by
  obtain ⟨h1, h2⟩ := ceilDiv_spec (n : Int) b hb
  have hp := ceilDiv_pos hb (by omega : (0 : Int) < n)
  obtain ⟨k, hk⟩ : ∃ k : Nat, ceilDiv (n : Int) b = k := ⟨(ceilDiv (n : Int) b).toNat, by omega⟩
  rw [hk] at h h1 h2 hp
  rw [Int.toNat_natCast] at h
  have hk0 : 0 < k := by omega
  obtain ⟨B, rfl⟩ : ∃ B : Nat, b = B := ⟨b.toNat, by omega⟩
  have h2' : n ≤ k * B := by exact_mod_cast h2
  have hB : 1 ≤ B := by omega
  have h1' : k ≤ n := by
    have : ((k : Int) - 1) * 1 ≤ (k - 1) * B := mul_le_mul_of_nonneg_left (by omega) (by omega)
    omega
  have hdm := Nat.div_add_mod n k
  have hpos : 0 < n / k := Nat.div_pos h1' hk0
  have hle : n / k ≤ B := by
    have := Nat.div_le_div_right (c := k) h2'
    rwa [Nat.mul_div_cancel_left _ hk0] at this
  rcases mem_arraySplitSizes h with ⟨rfl, hm⟩ | rfl
  · refine ⟨by omega, ?_⟩
    have : k * (n / k) < k * B := by omega
    have := Nat.lt_of_mul_lt_mul_left this
    omega
  · exact ⟨hpos, by omega⟩

theorem arraySplit_ok {α : Type} (l : List α) (k : Int) (hk : 0 < k) :
    arraySplit l k = .ok (splitSizes (arraySplitSizes l.length k.toNat) l) := by
  unfold arraySplit; rw [if_neg (by omega)]

theorem zip_flatten_fst {α β : Type} (xs : List (List α)) (ys : List (List β)) (h : xs.length = ys.length) :
    (xs.zip ys).flatMap (·.1) = xs.flatten ∧ (xs.zip ys).flatMap (·.2) = ys.flatten := by
  constructor
  · rw [List.flatMap_def, List.map_fst_zip (by omega)]
  · rw [List.flatMap_def, List.map_snd_zip (by omega)]

variable {K : Type} [Field K] [LinearOrder K]

theorem onesCols_append (c : Nat) (t1 t2 : List (List K)) :
    onesCols ⟨c, t1 ++ t2⟩ = onesCols ⟨c, t1⟩ ++ onesCols ⟨c, t2⟩ := by simp [onesCols]

theorem except_mapM_append {α β : Type} (f : α → Except PyErr β) (l1 l2 : List α) :
    (l1 ++ l2).mapM f = (do let a ← l1.mapM f; let b ← l2.mapM f; pure (a ++ b)) := List.mapM_append

theorem except_mapM_length {α β : Type} {f : α → Except PyErr β} {l : List α} {r : List β} (h : l.mapM f = .ok r) :
    r.length = l.length := by
  induction l generalizing r with
  | nil => simp [pure, Except.pure] at h; subst h; rfl
  | cons a l ih =>
    rw [List.mapM_cons] at h
    simp only [bind, Except.bind, pure, Except.pure] at h
    split at h
    · cases h
    · split at h
      · cases h
      · rename_i hh
        injection h with h
        subst h
        simp [ih hh]

theorem wcVector_length {wc : List (Option K)} {T : Mat K} {w : List K} (h : wcVector wc T = .ok w) :
    w.length = (onesCols T).length := except_mapM_length h

/-- Every row has exactly one entry equal to 1. -/
def OneEach (c : Nat) (rows : List (List K)) : Prop :=
  ∀ r ∈ rows, ((List.range c).filter fun j => r.getD j 0 = 1).length = 1

theorem OneEach.length {c : Nat} {rows : List (List K)} (h : OneEach c rows) : (onesCols ⟨c, rows⟩).length = rows.length := by
  unfold onesCols
  induction rows with
  | nil => rfl
  | cons r rows ih =>
    simp only [List.flatMap_cons, List.length_append, List.length_cons]
    rw [ih (fun r' hr' => h r' (List.mem_cons_of_mem _ hr')), h r List.mem_cons_self]
    omega

theorem OneEach.sub {c : Nat} {rows rows' : List (List K)} (h : OneEach c rows) (hs : ∀ r ∈ rows', r ∈ rows) :
    OneEach c rows' := fun r hr => h r (hs r hr)

theorem filter_eq_single {c k : Nat} (hk : k < c) (p : Nat → Bool) (hp : ∀ j < c, p j = decide (j = k)) :
    (List.range c).filter p = [k] := by
  have : (List.range c).filter p = (List.range c).filter (fun j => decide (j = k)) := by
    apply List.filter_congr
    intro j hj
    exact hp j (List.mem_range.1 hj)
  rw [this]
  induction c with
  | zero => omega
  | succ c ih =>
    rw [List.range_succ, List.filter_append]
    by_cases h : k = c
    · subst h
      have : (List.range k).filter (fun j => decide (j = k)) = [] := by
        rw [List.filter_eq_nil_iff]
        intro j hj
        have := List.mem_range.1 hj
        simp; omega
      rw [this]; simp
    · rw [ih (by omega) (fun j hj => hp j (by omega))]
      · simp; omega
      · apply List.filter_congr
        intro j hj
        exact hp j (by have := List.mem_range.1 hj; omega)

theorem isClass_ones {c k : Nat} {r : List K} (h : Spec.IsClass c r k) :
    ((List.range c).filter fun j => r.getD j 0 = 1) = [k] := by
  obtain ⟨hk, _, h⟩ := h
  apply filter_eq_single hk
  intro j hj
  rw [h j hj]
  by_cases hjk : j = k <;> simp [hjk]

theorem oneHot_oneEach {T : Mat K} (h : Spec.OneHot T) : OneEach T.cols T.rows := by
  intro r hr
  obtain ⟨k, hk⟩ := h r hr
  rw [isClass_ones hk]; rfl

theorem isClass_unique {c k k' : Nat} {r : List K} (h : Spec.IsClass c r k) (h' : Spec.IsClass c r k') : k = k' := by
  have := isClass_ones h
  rw [isClass_ones h'] at this
  injection this with h _
  exact h.symm

/-- Combine the weights of two batches. -/
theorem batchWeights_append {cls : Option String} {wc : Option (List (Option K))} {c : Nat} {t1 t2 : List (List K)}
    {w : Option (List K)} (h : batchWeights cls wc ⟨c, t1 ++ t2⟩ = .ok w) :
    ∃ w1 w2, batchWeights cls wc ⟨c, t1⟩ = .ok w1 ∧ batchWeights cls wc ⟨c, t2⟩ = .ok w2 ∧ w = wApp w1 w2 ∧
      w1.isSome = w2.isSome := by
  unfold batchWeights at *
  split at h
  · rename_i hcls
    cases wc with
    | none => cases h
    | some wc =>
      simp only [wcVector, onesCols_append, except_mapM_append, bind, Except.bind, pure, Except.pure] at h
      split at h
      · cases h
      · rename_i v1 hv
        split at hv
        · cases hv
        · rename_i a ha
          split at hv
          · cases hv
          · rename_i b hb
            injection h with h
            injection hv with hv
            refine ⟨some a, some b, ?_, ?_, ?_, rfl⟩
            · simp [hcls, wcVector, ha, bind, Except.bind, pure, Except.pure]
            · simp [hcls, wcVector, hb, bind, Except.bind, pure, Except.pure]
            · rw [← h, ← hv]; rfl
  · rename_i hcls
    injection h with h
    subst h
    exact ⟨none, none, by simp [hcls, pure, Except.pure], by simp [hcls, pure, Except.pure], rfl, rfl⟩

theorem batchWeights_length {cls : Option String} {wc : Option (List (Option K))} {c : Nat} {t : List (List K)}
    {w : Option (List K)} (h : batchWeights cls wc ⟨c, t⟩ = .ok w) (h1 : cls = some "wc" → OneEach c t) :
    ∀ v, w = some v → v.length = t.length := by
  rintro v rfl
  unfold batchWeights at h
  split at h
  · rename_i hcls
    cases wc with
    | none => cases h
    | some wc =>
      simp only [bind, Except.bind, pure, Except.pure] at h
      split at h
      · cases h
      · rename_i hv
        injection h with h; injection h with h; subst h
        rw [wcVector_length hv, (h1 hcls).length]
  · cases h

theorem feed_eq_addBatch (env : Env K) (ic oc : Nat) (bs : List (List (List K) × List (List K))) (e : ELM K)
    (hne : bs ≠ []) (hlen : ∀ b ∈ bs, b.1.length = b.2.length)
    (h1 : e.classification = some "wc" → OneEach oc (bs.flatMap (·.2))) {w : Option (List K)}
    (hw : batchWeights e.classification e.wc ⟨oc, bs.flatMap (·.2)⟩ = .ok w) :
    e.feed env ic oc bs = (e.nnet.addBatch env ⟨ic, bs.flatMap (·.1)⟩ ⟨oc, bs.flatMap (·.2)⟩ w).map
      fun n => { e with nnet := n } := by
  induction bs generalizing e w with
  | nil => exact absurd rfl hne
  | cons b rest ih =>
    obtain ⟨x, t⟩ := b
    simp only [List.flatMap_cons] at hw ⊢ h1
    obtain ⟨w1, w2, hw1, hw2, rfl, hs⟩ := batchWeights_append hw
    have hl : x.length = t.length := hlen (x, t) List.mem_cons_self
    have o1 : e.classification = some "wc" → OneEach oc t := fun h => (h1 h).sub (by simp_all)
    have o2 : e.classification = some "wc" → OneEach oc (rest.flatMap (·.2)) := fun h =>
      (h1 h).sub (fun r hr => List.mem_append_right _ hr)
    simp only [ELM.feed, hw1, bind, Except.bind]
    have hl2 : (rest.flatMap (·.1)).length = (rest.flatMap (·.2)).length := by
      rw [List.length_flatMap, List.length_flatMap]
      congr 1
      apply List.map_congr_left
      intro b hb
      exact hlen b (List.mem_cons_of_mem _ hb)
    rw [addBatch_append env e.nnet hl hl2 hs]
    rotate_left
    · intro v hv; rw [batchWeights_length hw1 o1 v hv, hl]
    · intro v hv; rw [batchWeights_length hw2 o2 v hv, hl2]
    cases hb : e.nnet.addBatch env ⟨ic, x⟩ ⟨oc, t⟩ w1 with
    | error er => rfl
    | ok n1 =>
      simp only [Except.bind]
      by_cases hr : rest = []
      · subst hr
        simp only [List.flatMap_nil, ELM.feed]
        -- adding an empty batch changes nothing
        have hzero : n1.addBatch env ⟨ic, []⟩ ⟨oc, []⟩ w2 = .ok n1 := by
          have := addBatch_append env e.nnet (c := ic) (d := oc) (x1 := x) (x2 := []) (t1 := t) (t2 := []) hl rfl hs
            (fun v hv => by rw [batchWeights_length hw1 o1 v hv, hl])
            (fun v hv => by
              have := batchWeights_length hw2 (by simpa using o2) v hv
              simpa using this)
          rw [hb] at this
          simp only [Except.bind] at this
          rw [← this]
          simp only [List.append_nil]
          have hw' : wApp w1 w2 = w1 := by
            cases w1 with
            | none => rfl
            | some a =>
              cases w2 with
              | none => simp at hs
              | some b =>
                have := batchWeights_length hw2 (by simpa using o2) b rfl
                simp at this
                subst this
                simp [wApp]
          rw [hw', hb]
        rw [hzero]
        rfl
      · have := ih { e with nnet := n1 } hr (fun b hb => hlen b (List.mem_cons_of_mem _ hb)) o2 hw2
        simp only at this
        rw [this]

/-- `add_data` is `add_batch` of everything (for a positive batch size and at least one sample). -/
theorem addData_eq (env : Env K) (e : ELM K) (X T : Mat K) (hb : 0 < e.batch) (hn : 0 < X.nrows)
    (hN : X.nrows = T.nrows) (h1 : e.classification = some "wc" → OneEach T.cols T.rows) {w : Option (List K)}
    (hw : batchWeights e.classification (e.autoWc env (colSums T)).wc T = .ok w) :
    e.addData env X T = (e.nnet.addBatch env X T w).map fun n => { e.autoWc env (colSums T) with nnet := n } := by
  obtain ⟨xc, xr⟩ := X
  obtain ⟨tc, tr⟩ := T
  simp only [Mat.nrows_mk] at hn hN
  have hk := ceilDiv_pos hb (by omega : (0 : Int) < (xr.length : Int))
  unfold ELM.addData
  have hb0 : e.batch ≠ 0 := by omega
  simp only [hb0, if_false, pure_bind, Mat.nrows_mk]
  rw [arraySplit_ok _ _ hk, arraySplit_ok _ _ hk]
  simp only [bind, Except.bind]
  have hkn : 0 < (ceilDiv (xr.length : Int) e.batch).toNat := by omega
  have s1 := arraySplitSizes_sum xr.length _ hkn
  have s2 := arraySplitSizes_sum tr.length _ hkn
  have l1 := splitSizes_lengths _ xr s1
  have l2 := splitSizes_lengths _ tr s2
  have f1 := splitSizes_flatten _ xr s1
  have f2 := splitSizes_flatten _ tr s2
  rw [← hN] at s2 l2 f2 ⊢
  generalize hxs : splitSizes (arraySplitSizes xr.length (ceilDiv (xr.length : Int) e.batch).toNat) xr = xs at *
  generalize hts : splitSizes (arraySplitSizes xr.length (ceilDiv (xr.length : Int) e.batch).toNat) tr = ts at *
  have hlen : xs.length = ts.length := by
    have := congrArg List.length (l1.trans l2.symm)
    simpa using this
  obtain ⟨g1, g2⟩ := zip_flatten_fst xs ts hlen
  rw [f1] at g1
  rw [f2] at g2
  have hcls : (e.autoWc env (colSums ⟨tc, tr⟩)).classification = e.classification := by
    unfold ELM.autoWc; split <;> rfl
  have hnn : (e.autoWc env (colSums ⟨tc, tr⟩)).nnet = e.nnet := by
    unfold ELM.autoWc; split <;> rfl
  rw [feed_eq_addBatch env xc tc (xs.zip ts) (e.autoWc env (colSums ⟨tc, tr⟩)) (w := w)]
  · rw [g1, g2, hnn]
  · intro h
    have : xs.length = 0 := by
      have h' := congrArg List.length h
      rw [List.length_zip, List.length_nil, ← hlen] at h'
      omega
    have hxs0 : xs = [] := List.length_eq_zero_iff.1 this
    rw [hxs0] at f1
    rw [← f1] at hn
    simp at hn
  · rintro ⟨a, b⟩ hab
    obtain ⟨i, hi, hab⟩ := List.getElem_of_mem hab
    simp only [List.getElem_zip, Prod.mk.injEq] at hab
    obtain ⟨rfl, rfl⟩ := hab
    have h' := l1.trans l2.symm
    simp only [List.length_zip] at hi
    have h2 := congrArg (fun l : List Nat => l[i]?) h'
    simp only [List.getElem?_map] at h2
    rw [List.getElem?_eq_getElem (by omega), List.getElem?_eq_getElem (by omega)] at h2
    simpa using h2
  · rw [hcls, g2]; exact h1
  · rw [hcls, g2]; exact hw

end Hpelm
