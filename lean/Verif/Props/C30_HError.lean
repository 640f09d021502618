import Verif.Props.C25_C29_Errors
import Verif.Lemmas.DataArgs

/-!
# C30 — the out-of-memory error equals the in-memory error
-/

namespace Hpelm.Props
open Hpelm Spec
variable {K : Type} [Field K] [LinearOrder K] [IsStrictOrderedRing K]
set_option linter.unusedSectionVars false

theorem flatten_zipWith_length (g : List K → List K → List K) (c : Nat) (P : List (List K × List K)) (hg : ∀ p ∈ P, (g p.1 p.2).length = c) :
    ((P.map fun p => g p.1 p.2).flatten).length = P.length * c := by
  induction P with
  | nil => simp
  | cons p P ih =>
    rw [List.map_cons, List.flatten_cons, List.length_append, ih (fun q hq => hg q (List.mem_cons_of_mem _ hq)), hg p List.mem_cons_self,
      List.length_cons]
    ring

theorem flatten_zipWith_sum (g : List K → List K → List K) (P : List (List K × List K)) :
    ((P.map fun p => g p.1 p.2).flatten).sum = (P.map fun p => (g p.1 p.2).sum).sum := by
  rw [List.sum_flatten, List.map_map]
  rfl

theorem flatMap_single {α β : Type} (f : α → β) (l : List α) : l.flatMap (fun a => [f a]) = l.map f := by
  induction l with
  | nil => rfl
  | cons a l ih => rw [List.flatMap_cons, ih]; rfl

theorem hErrLoop_eq (g : List K → List K → List K) (c : Nat) (hc : 0 < c) (errb : Mat K → Mat K → Option K)
    (herr : ∀ Tb Yb, errb Tb Yb = mean? ((Tb.rows.zip Yb.rows).map fun p => g p.1 p.2).flatten) {T Y : Mat K}
    (hg : ∀ p ∈ T.rows.zip Y.rows, (g p.1 p.2).length = c) (hr : T.nrows = Y.nrows) (hcols : T.cols = Y.cols)
    (icount : Int) (bs : List (Int × Int)) (hbs : ∀ b ∈ bs, 0 ≤ b.1 ∧ b.1 < b.2 ∧ b.2 ≤ T.nrows) (a : K) :
    hErrLoop errb icount T Y bs (some a) =
      .ok (some (a + ((bs.flatMap fun b => pySlice (T.rows.zip Y.rows) b.1 b.2).map fun p => (g p.1 p.2).sum).sum / (c * icount))) := by
  induction bs generalizing a with
  | nil => simp [hErrLoop]
  | cons b bs ih =>
    unfold hErrLoop
    obtain ⟨h0, h1, h2⟩ := hbs b List.mem_cons_self
    have l1 := pySlice_length T.rows h0 h1.le h2
    have l2 := pySlice_length Y.rows h0 h1.le (by rw [hr] at h2; exact h2)
    have e1 : (T.slice b.1 b.2).nrows = (Y.slice b.1 b.2).nrows := by
      unfold Mat.slice Mat.nrows
      simp only
      omega
    rw [if_neg (by rw [e1, hcols]; simp)]
    have hz : (T.slice b.1 b.2).rows.zip (Y.slice b.1 b.2).rows = pySlice (T.rows.zip Y.rows) b.1 b.2 := pySlice_zip _ _ hr _ _
    have hlen : ((pySlice (T.rows.zip Y.rows) b.1 b.2).length : Int) = b.2 - b.1 :=
      pySlice_length _ h0 h1.le (by have : T.rows.length = Y.rows.length := hr; simp [← this]; exact h2)
    have hfl := flatten_zipWith_length g c (pySlice (T.rows.zip Y.rows) b.1 b.2) (fun p hp => hg p (mem_pySlice hp))
    have hlpos : 0 < (pySlice (T.rows.zip Y.rows) b.1 b.2).length := by omega
    have hmean : errb (T.slice b.1 b.2) (Y.slice b.1 b.2) =
        some (((pySlice (T.rows.zip Y.rows) b.1 b.2).map fun p => (g p.1 p.2).sum).sum / (((pySlice (T.rows.zip Y.rows) b.1 b.2).length : K) * c)) := by
      rw [herr, hz]
      unfold mean?
      rw [if_neg, hfl, flatten_zipWith_sum]
      · push_cast; rfl
      · intro h0
        rw [List.isEmpty_iff] at h0
        rw [h0, List.length_nil] at hfl
        have := Nat.mul_pos hlpos hc
        rw [← hfl] at this
        exact absurd this (lt_irrefl 0)
    simp only [hmean]
    rw [ih (fun b hb => hbs b (List.mem_cons_of_mem _ hb)), List.flatMap_cons, List.map_append, List.sum_append]
    congr 2
    have hK : (((b.2 - b.1 : Int)) : K) = ((pySlice (T.rows.zip Y.rows) b.1 b.2).length : K) := by
      rw [← hlen]; push_cast; rfl
    rw [hK]
    have hcK : (c : K) ≠ 0 := by exact_mod_cast hc.ne'
    have hlK : ((pySlice (T.rows.zip Y.rows) b.1 b.2).length : K) ≠ 0 := by exact_mod_cast hlpos.ne'
    by_cases hi : (icount : K) = 0
    · rw [hi]; simp
    · field_simp
      ring

theorem elmErr_mean (g : List K → List K → List K) (c n : Nat) (hc : 0 < c) (hn : 0 < n) (P : List (List K × List K)) (hP : P.length = n)
    (hg : ∀ p ∈ P, (g p.1 p.2).length = c) (v : K) :
    notNan (mean? ((P.map fun p => g p.1 p.2).flatten)) = .ok v ↔ v = (P.map fun p => (g p.1 p.2).sum).sum / (c * n) := by
  have hl := flatten_zipWith_length g c P hg
  rw [mean_some, flatten_zipWith_sum, hl, hP]
  · push_cast
    rw [mul_comm (c : K)]
  · intro h0
    rw [h0, hP] at hl
    have := Nat.mul_pos hn hc
    simp at hl
    omega

theorem zip_samplesOf (T Y : Mat K) (s n : Nat) :
    (samplesOf T s n).rows.zip (samplesOf Y s n).rows = ((T.rows.zip Y.rows).drop s).take n := by
  unfold samplesOf
  simp only [List.zip, List.take_zipWith, List.drop_zipWith]

theorem hClassCounts_eq {T Y : Mat K} (hr : T.nrows = Y.nrows) (i : Nat) (bs : List (Int × Int)) :
    hClassCounts T Y i bs =
      ((((bs.flatMap fun b => pySlice (T.rows.zip Y.rows) b.1 b.2).filter fun p => p.1.getD i 0 = 1).map fun p => b2k (argmax p.2 != i)).sum,
       ((((bs.flatMap fun b => pySlice (T.rows.zip Y.rows) b.1 b.2).filter fun p => p.1.getD i 0 = 1).length : Nat) : K)) := by
  have : ∀ (bs : List (Int × Int)) (s : K × K), bs.foldl (fun s b =>
      let m := classMisses (T.slice b.1 b.2) (Y.slice b.1 b.2) i
      ((s.1 + (m.map b2k).sum, s.2 + m.length) : K × K)) s =
      (s.1 + (((bs.flatMap fun b => pySlice (T.rows.zip Y.rows) b.1 b.2).filter fun p => p.1.getD i 0 = 1).map fun p => b2k (argmax p.2 != i)).sum,
       s.2 + ((((bs.flatMap fun b => pySlice (T.rows.zip Y.rows) b.1 b.2).filter fun p => p.1.getD i 0 = 1).length : Nat) : K)) := by
    intro bs
    induction bs with
    | nil => intro s; simp
    | cons b bs ih =>
      intro s
      rw [List.foldl_cons, ih]
      have hz : (T.slice b.1 b.2).rows.zip (Y.slice b.1 b.2).rows = pySlice (T.rows.zip Y.rows) b.1 b.2 := pySlice_zip _ _ hr _ _
      simp only [classMisses, hz, List.flatMap_cons, List.filter_append, List.map_append, List.sum_append, List.length_append, List.map_map,
        List.length_map, Nat.cast_add, Function.comp_def, add_assoc]
  have h := this bs (0, 0)
  unfold hClassCounts
  rw [h]
  simp

theorem hError_range (cls : Option String) (wc : Option (List (Option K))) (batch : Int) (T Y : Mat K) (istart : Int) (icount : Option Int)
    (hT : T.WF) (hY : Y.WF) (hr : T.nrows = Y.nrows) (hcols : T.cols = Y.cols) (hcp : 0 < T.cols) (hb : 0 < batch) (hs : 0 ≤ istart)
    (hn : 0 < rangeCount T.nrows istart icount)
    (hwc : cls = some "wc" → ∀ i < T.cols, ∃ r ∈ (samplesOf T istart.toNat (rangeCount T.nrows istart icount).toNat).rows, r.getD i 0 = 1) (v : K) :
    hError cls wc batch T Y istart icount = .ok (some v) ↔
      elmError cls wc (samplesOf T istart.toNat (rangeCount T.nrows istart icount).toNat)
        (samplesOf Y istart.toNat (rangeCount T.nrows istart icount).toNat) = .ok v := by
  obtain ⟨bs, h1, h2, h3, _⟩ := hBatches_spec (istart := istart) hb hs hn.le
  have hle := rangeCount_le T.nrows istart icount
  have hbs : ∀ b ∈ bs, 0 ≤ b.1 ∧ b.1 < b.2 ∧ b.2 ≤ T.nrows := by
    intro b hb
    obtain ⟨a1, a2, a3, a4⟩ := h3 b hb
    exact ⟨by omega, a2, by omega⟩
  generalize hcnt : rangeCount T.nrows istart icount = cnt at *
  obtain ⟨n, rfl⟩ : ∃ n : Nat, cnt = n := ⟨cnt.toNat, by omega⟩
  obtain ⟨s, rfl⟩ : ∃ s : Nat, istart = s := ⟨istart.toNat, by omega⟩
  simp only [Int.toNat_natCast] at *
  have hP := h2 _ (T.rows.zip Y.rows)
  have hPl : (((T.rows.zip Y.rows).drop s).take n).length = n := by
    have : T.rows.length = Y.rows.length := hr
    have h4 : T.rows.length = T.nrows := rfl
    simp [← this]
    omega
  have hmem : ∀ p ∈ T.rows.zip Y.rows, p.1.length = T.cols ∧ p.2.length = T.cols := by
    intro p hp
    obtain ⟨a, b⟩ := p
    have := List.of_mem_zip hp
    exact ⟨hT _ this.1, by rw [hcols]; exact hY _ this.2⟩
  have hmem' : ∀ p ∈ ((T.rows.zip Y.rows).drop s).take n, p ∈ T.rows.zip Y.rows :=
    fun p hp => List.mem_of_mem_drop (List.mem_of_mem_take hp)
  have hnr : (samplesOf T s n).nrows = n := samplesOf_nrows (by omega)
  have hnrY : (samplesOf Y s n).nrows = n := samplesOf_nrows (by omega)
  have hn' : 0 < n := by omega
  have fin : ∀ (g g' : List K → List K → List K) (c : Nat), 0 < c → (∀ p ∈ T.rows.zip Y.rows, (g p.1 p.2).length = c) →
      (∀ p ∈ T.rows.zip Y.rows, (g' p.1 p.2).length = c) → (∀ p ∈ T.rows.zip Y.rows, (g p.1 p.2).sum = (g' p.1 p.2).sum) →
      ((Except.ok (some (0 + ((bs.flatMap fun b => pySlice (T.rows.zip Y.rows) b.1 b.2).map fun p => (g p.1 p.2).sum).sum / (c * ((n : Int) : K))))
        : Except PyErr (Option K)) = .ok (some v) ↔
      notNan (mean? ((((samplesOf T s n).rows.zip (samplesOf Y s n).rows).map fun p => g' p.1 p.2).flatten)) = .ok v) := by
    intro g g' c hc hg hg' hgg
    rw [zip_samplesOf, elmErr_mean g' c n hc hn' _ hPl (fun p hp => hg' p (hmem' p hp)), hP]
    have e1 : ((((T.rows.zip Y.rows).drop s).take n).map fun p => (g p.1 p.2).sum) = (((T.rows.zip Y.rows).drop s).take n).map fun p => (g' p.1 p.2).sum := by
      apply List.map_congr_left
      intro p hp
      exact hgg p (hmem' p hp)
    rw [e1, zero_add]
    constructor
    · intro h
      injection h with h
      injection h with h
      rw [← h]; push_cast; rfl
    · intro h
      rw [h]; push_cast; rfl
  unfold hError elmError
  rw [hcnt]
  simp only [h1, bind, Except.bind]
  rw [if_neg (c := (samplesOf T s n).nrows ≠ (samplesOf Y s n).nrows ∨ (samplesOf T s n).cols ≠ (samplesOf Y s n).cols)
    (by rw [hnr, hnrY]; simp [samplesOf, hcols])]
  by_cases c1 : cls = some "c"
  · rw [if_pos c1, if_pos c1]
    rw [hErrLoop_eq (fun t y => [b2k (argmax y != argmax t)]) 1 (by omega) _ (by
      intro Tb Yb
      congr 1
      unfold misses
      rw [List.map_zipWith, ← List.map_uncurry_zip_eq_zipWith, ← List.flatMap, flatMap_single]
      rfl) (by simp) hr hcols _ bs hbs]
    have := fin (fun t y => [b2k (argmax y != argmax t)]) (fun t y => [b2k (argmax y != argmax t)]) 1 (by omega) (by simp) (by simp) (fun _ _ => rfl)
    rw [this]
    unfold misses
    rw [List.map_zipWith, ← List.map_uncurry_zip_eq_zipWith, ← List.flatMap, flatMap_single]
    rfl
  rw [if_neg c1, if_neg c1]
  by_cases c2 : cls = some "wc"
  · rw [if_pos c2, if_pos c2]
    have hany : ¬ (bs.any (fun b => (T.slice b.1 b.2).nrows ≠ (Y.slice b.1 b.2).nrows) = true ∨ T.cols ≠ Y.cols) := by
      rintro (h | h)
      · rw [List.any_eq_true] at h
        obtain ⟨b, hb, hne⟩ := h
        obtain ⟨a0, a1, a2⟩ := hbs b hb
        have l1 := pySlice_length T.rows a0 a1.le a2
        have l2 := pySlice_length Y.rows a0 a1.le (by rw [hr] at a2; exact a2)
        simp only [ne_eq, decide_not, Bool.not_eq_true', decide_eq_false_iff_not] at hne
        apply hne
        unfold Mat.slice Mat.nrows
        simp only
        omega
      · exact h hcols
    rw [if_neg hany]
    have hcm : ∀ i, classMisses (samplesOf T s n) (samplesOf Y s n) i
        = ((((T.rows.zip Y.rows).drop s).take n).filter fun p => p.1.getD i 0 = 1).map fun p => argmax p.2 != i := by
      intro i
      unfold classMisses
      rw [zip_samplesOf]
    have hcc : ∀ i < T.cols, (classMisses (samplesOf T s n) (samplesOf Y s n) i) ≠ [] := by
      intro i hi h0
      obtain ⟨r, hrm, hr1⟩ := hwc c2 i hi
      rw [hcm, List.map_eq_nil_iff, List.filter_eq_nil_iff] at h0
      have hrm' : r ∈ ((((T.rows.zip Y.rows).drop s).take n).map (·.1)) := by
        rw [← zip_samplesOf, List.map_fst_zip]
        · exact hrm
        · have a : (samplesOf T s n).rows.length = n := hnr
          have b : (samplesOf Y s n).rows.length = n := hnrY
          omega
      obtain ⟨p, hp, rfl⟩ := List.mem_map.1 hrm'
      exact h0 p hp (by simpa using hr1)
    have hci : ∀ i, hClassCounts T Y i bs = (((classMisses (samplesOf T s n) (samplesOf Y s n) i).map b2k).sum,
        ((classMisses (samplesOf T s n) (samplesOf Y s n) i).length : K)) := by
      intro i
      rw [hClassCounts_eq hr, hP, hcm, List.map_map, List.length_map]
      rfl
    cases hw : wc with
    | none => simp
    | some w =>
      simp only
      have hno : ¬ (((List.range T.cols).map fun i => hClassCounts T Y i bs).any (fun c => decide (c.2 = 0)) = true) := by
        intro h
        rw [List.any_eq_true] at h
        obtain ⟨c, hcm', h0⟩ := h
        obtain ⟨i, hi, rfl⟩ := List.mem_map.1 hcm'
        rw [hci i] at h0
        simp only [decide_eq_true_iff] at h0
        have : (classMisses (samplesOf T s n) (samplesOf Y s n) i).length = 0 := by exact_mod_cast h0
        exact hcc i (List.mem_range.1 hi) (List.length_eq_zero_iff.1 this)
      rw [if_neg hno]
      have hE : ((List.range T.cols).map fun i => hClassCounts T Y i bs).map (fun c => c.1 / c.2) =
          (List.range (samplesOf T s n).cols).map fun i => (mean? ((classMisses (samplesOf T s n) (samplesOf Y s n) i).map (b2k (K := K)))).getD 0 := by
        rw [List.map_map]
        apply List.map_congr_left
        intro i hi
        simp only [Function.comp, hci]
        unfold mean?
        have := hcc i (List.mem_range.1 hi)
        rw [if_neg (by simpa using this), List.length_map]
        rfl
      rw [hE]
      cases weightedMean ((List.range (samplesOf T s n).cols).map fun i => (mean? ((classMisses (samplesOf T s n) (samplesOf Y s n) i).map (b2k (K := K)))).getD 0) w with
      | error x => simp
      | ok r => cases r <;> simp [notNan]
  rw [if_neg c2, if_neg c2]
  by_cases c3 : cls = some "ml"
  · rw [if_pos c3, if_pos c3]
    have hfl : ∀ Tb Yb : Mat K, (labelMisses Tb Yb).flatten.map (b2k (K := K)) =
        ((Tb.rows.zip Yb.rows).map fun p => List.zipWith (fun t y => b2k ((decide (1 / 2 < y)) != (decide (1 / 2 < t)))) p.1 p.2).flatten := by
      intro Tb Yb
      unfold labelMisses
      rw [List.map_flatten, List.map_zipWith, ← List.map_uncurry_zip_eq_zipWith]
      congr 1
      apply List.map_congr_left
      intro p _
      simp only [Function.uncurry, List.map_zipWith]
    rw [hErrLoop_eq (List.zipWith (fun t y => b2k ((decide (1 / 2 < y)) != (decide (1 / 2 < t))))) T.cols hcp _ (by
      intro Tb Yb
      rw [hfl]) (by
      intro p hp
      simp [hmem p hp]) hr hcols _ bs hbs, fin _ (List.zipWith (fun t y => b2k ((decide (1 / 2 < y)) != (decide (1 / 2 < t))))) T.cols hcp
        (by intro p hp; simp [hmem p hp]) (by intro p hp; simp [hmem p hp]) (fun _ _ => rfl), hfl]
  · rw [if_neg c3, if_neg c3]
    rw [hErrLoop_eq (fun t y => List.zipWith (fun t y => (y - t) * (y - t)) y t) T.cols hcp _ (by
      intro Tb Yb
      unfold sqErrs
      rw [List.zipWith_comm, ← List.map_uncurry_zip_eq_zipWith]
      rfl) (by
      intro p hp
      simp [hmem p hp]) hr hcols _ bs hbs, fin (fun t y => List.zipWith (fun t y => (y - t) * (y - t)) y t) (List.zipWith (fun t y => (y - t) * (y - t))) T.cols hcp
        (by intro p hp; simp [hmem p hp]) (by intro p hp; simp [hmem p hp]) ?_]
    · unfold sqErrs
      rw [← List.map_uncurry_zip_eq_zipWith]
      rfl
    · intro p hp
      rw [List.zipWith_comm]
      congr 2
      funext a b
      ring

/-- C30, the part that holds.  For targets and predictions given as arrays or files, on a range of at least one sample, HPELM.error
returns the value v exactly when ELM.error on those samples does, for every batch size and every classification kind; for
weighted classification every class must occur in the range.  (The whole data set is the range `istart = 0`, `icount = none`.) -/
theorem C30_hpelm_error_partial (fs : Files K) (e : ELM K) (fT fY : DataArg K) (T Y : Mat K) (istart : Nat) (icount : Option Nat)
    (rT : Reads fs fT (some T)) (rY : Reads fs fY (some Y)) (h : Fits e T Y) (hb : 0 < e.batch) (hn : 0 < (samplesIn T istart icount).nrows)
    (hwc : e.classification = some "wc" → ∀ i < e.nnet.outputs, ∃ n, (samplesIn T istart icount).get n i = 1) (v : K) :
    e.hErrorOf fs fT fY istart (icount.map Int.ofNat) = .ok (some v) ↔
      e.error fs (.mat (samplesIn T istart icount)) (.mat (samplesIn Y istart icount)) = .ok v := by
  have c1 := (checkOne_iff fs e.nnet.outputs fT (some T)).2 ⟨rT, by rintro M ⟨⟩; exact h.colsT⟩
  have c2 := (checkOne_iff fs e.nnet.outputs fY (some Y)).2 ⟨rY, by rintro M ⟨⟩; exact h.colsY⟩
  have hnr : Y.nrows = T.nrows := h.rows.symm
  rw [samplesIn_nrows] at hn
  have hfit : Fits e (samplesIn T istart icount) (samplesIn Y istart icount) :=
    ⟨samplesIn_WF h.wfT _ _, samplesIn_WF h.wfY _ _, by rw [samplesIn_nrows, samplesIn_nrows, hnr],
      by rw [samplesIn_cols]; exact h.colsT, by rw [samplesIn_cols]; exact h.colsY, h.pos⟩
  rw [error_mat fs hfit]
  unfold ELM.hErrorOf
  simp only [c1, c2, bind, Except.bind]
  have hrow : ∀ i n, (samplesIn T istart icount).get n i = 1 → ∃ r ∈ (samplesIn T istart icount).rows, r.getD i 0 = 1 := by
    intro i n hg
    rcases Nat.lt_or_ge n (samplesIn T istart icount).rows.length with hl | hl
    · exact ⟨_, List.getElem_mem hl, by
        unfold Mat.get at hg
        rwa [List.getD_eq_getElem _ _ hl] at hg⟩
    · rw [Mat.get_ge_rows _ hl] at hg
      exact absurd hg zero_ne_one
  have := hError_range e.classification e.wc e.batch T Y istart (icount.map Int.ofNat) h.wfT h.wfY h.rows (by rw [h.colsT, h.colsY])
    (by rw [h.colsT]; exact h.pos) hb (by omega) (by omega) (by
      intro hc i hi
      obtain ⟨n, hg⟩ := hwc hc i (by rw [← h.colsT]; exact hi)
      have := hrow i n hg
      rw [samplesIn_eq] at this
      exact this) v
  rw [this]
  have e1 := samplesIn_eq T istart icount
  have e2 := samplesIn_eq Y istart icount
  rw [hnr] at e2
  rw [e1, e2]
  rfl

/-- The hypotheses of `C30_hpelm_error_partial` are met, and both sides give 5/8 here. -/
example : (exModel 2 2 (some "wc") (some [some 1, some (3 : ℚ)])).hErrorOf (fun _ => none)
    (.mat ⟨2, [[1, 0], [0, 1], [0, 1], [1, 0], [0, 1]]⟩) (.mat ⟨2, [[1, 0], [1, 0], [0, 1], [0, 1], [0, 1]]⟩) 1 (some 3) = .ok (some (5 / 8)) := by
  decide +kernel

example : (exModel 2 2 (some "wc") (some [some 1, some (3 : ℚ)])).error (fun _ => none)
    (.mat (samplesIn ⟨2, [[1, 0], [0, 1], [0, 1], [1, 0], [0, 1]]⟩ 1 (some 3)))
    (.mat (samplesIn ⟨2, [[1, 0], [1, 0], [0, 1], [0, 1], [0, 1]]⟩ 1 (some 3))) = .ok (5 / 8) := by decide +kernel

/-- C30 is false in general: for weighted classification, if some class has no samples, HPELM.error returns NaN where ELM.error
returns the weighted error. -/
theorem C30_hpelm_error_refuted :
    ¬ ∀ (fs : Files ℚ) (e : ELM ℚ) (T Y : Mat ℚ) (v : ℚ), Fits e T Y → 0 < e.batch → 0 < T.nrows →
        e.error fs (.mat T) (.mat Y) = .ok v → e.hErrorOf fs (.mat T) (.mat Y) 0 none = .ok (some v) := by
  intro h
  have := h (fun _ => none) (exModel 2 10 (some "wc") (some [some 1, some 1])) ⟨2, [[1, 0]]⟩ ⟨2, [[1, 0]]⟩ 0
    ⟨by unfold Mat.WF; decide, by unfold Mat.WF; decide, rfl, rfl, rfl, by decide⟩ (by decide) (by decide) (by decide +kernel)
  revert this
  decide +kernel

end Hpelm.Props
