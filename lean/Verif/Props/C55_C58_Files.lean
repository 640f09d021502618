import Verif.Spec.Hdf5
import Verif.Spec.DataArgs
import Verif.Model.Hdf5
import Verif.Model.Writers
import Verif.Lemmas.DataArgs
import Verif.Lemmas.Mat
import Verif.Lemmas.Bridge
import Verif.Lemmas.QEnv
import Mathlib.Logic.Relation
import Mathlib.Algebra.BigOperators.Group.List.Lemmas
import Mathlib.Algebra.BigOperators.Ring.Finset
import Mathlib.Algebra.BigOperators.Field
import Mathlib.Algebra.Order.BigOperators.Ring.Finset
import Mathlib.Tactic.Ring
import Mathlib.Tactic.FieldSimp

/-!
# C55 – C58: saving under crashes, data files, normalization
-/

set_option linter.unusedSectionVars false

namespace Hpelm.Props
open Hpelm Spec Finset
variable {K : Type} [Field K] [LinearOrder K]

/-! ## C55 -/

/-- What a crash during a save can leave: every state reachable from the one before the save. -/
def SaveReach {β : Type} (new : List β) (old : Option (List β)) (s : Option (List β) × Option Nat) : Prop :=
  Relation.ReflTransGen (SaveStep new) (old, none) s

/-- The reachable states: nothing happened yet, or the file is the first `k` bytes of the new model. -/
theorem saveReach_cases {β : Type} {new : List β} {old : Option (List β)} {s} (h : SaveReach new old s) :
    s = (old, none) ∨ ∃ k, k ≤ new.length ∧ s = (some (new.take k), some k) := by
  induction h with
  | refl => exact Or.inl rfl
  | tail _ hs ih =>
    cases hs with
    | opened o => exact Or.inr ⟨0, Nat.zero_le _, by simp⟩
    | wrote k m hk hm => exact Or.inr ⟨m, hm, rfl⟩

/-- C55, the part that holds.  `enc` is any way of writing models whose proper beginnings are not complete models (a pickle ends with its
stop mark).  At every crash point the file holds the old contents (the save has not begun), exactly the new model, or nothing that can be
loaded — never a mixture; if all bytes were written it holds the new model.

Missing for the full property: between opening and the last byte the old model is gone and the new one not there (`C55_crash_refuted`). -/
theorem C55_crash_partial {β M : Type} (enc : M → List β) (dec : List β → Option M) (hdec : ∀ m, dec (enc m) = some m)
    (hpre : ∀ m k, k < (enc m).length → dec ((enc m).take k) = none) (m : M) (old : Option (List β)) (file : Option (List β)) (k : Option Nat)
    (h : SaveReach (enc m) old (file, k)) :
    (k = none → file = old) ∧ (k ≠ none → file.bind dec = some m ∨ file.bind dec = none) ∧
    (k = some (enc m).length → file = some (enc m) ∧ file.bind dec = some m) := by
  rcases saveReach_cases h with h | ⟨i, hi, h⟩
  · injection h with h1 h2
    subst h1 h2
    exact ⟨fun _ => rfl, fun h => absurd rfl h, nofun⟩
  · injection h with h1 h2
    subst h1 h2
    refine ⟨nofun, fun _ => ?_, fun h => ?_⟩
    · rcases Nat.lt_or_ge i (enc m).length with hl | hl
      · exact Or.inr (hpre m i hl)
      · left
        rw [List.take_of_length_le hl]
        exact hdec m
    · injection h with h
      rw [h, List.take_length]
      exact ⟨rfl, hdec m⟩

/-- A save that is not interrupted does finish. -/
theorem C55_save_finishes {β : Type} (new : List β) (hne : new ≠ []) (old : Option (List β)) : SaveReach new old (some new, some new.length) := by
  have h0 : SaveReach new old (some (new.take 0), some 0) := Relation.ReflTransGen.single (by simpa using SaveStep.opened old)
  have := h0.tail (SaveStep.wrote 0 new.length (List.length_pos_iff.2 hne) le_rfl)
  rwa [List.take_length] at this

/-- C55 is false for every model and every stored model: there is a crash point at which the file is empty, and one after each proper
beginning of the new model; what is there is neither the old nor the new model, and cannot be loaded. -/
theorem C55_crash_refuted {β M : Type} (enc : M → List β) (dec : List β → Option M) (hdec : ∀ m, dec (enc m) = some m)
    (hpre : ∀ m k, k < (enc m).length → dec ((enc m).take k) = none) (old m : M) (k : Nat) (hk : k < (enc m).length) :
    ∃ file n, SaveReach (enc m) (some (enc old)) (file, n) ∧ file = some ((enc m).take k) ∧ file.bind dec = none ∧
      file ≠ some (enc old) ∧ file ≠ some (enc m) := by
  have hd := hpre m k hk
  refine ⟨some ((enc m).take k), some k, ?_, rfl, hd, ?_, ?_⟩
  · have h0 : SaveReach (enc m) (some (enc old)) (some ((enc m).take 0), some 0) := Relation.ReflTransGen.single (by simpa using SaveStep.opened _)
    rcases Nat.eq_zero_or_pos k with rfl | hp
    · exact h0
    · exact h0.tail (SaveStep.wrote 0 k hp hk.le)
  · intro h
    injection h with h
    rw [h, hdec] at hd
    cases hd
  · intro h
    injection h with h
    rw [h, hdec] at hd
    cases hd

/-- A code with these properties: numbers in unary with a stop mark. -/
example : ∃ (enc : Nat → List Bool) (dec : List Bool → Option Nat), (∀ m, dec (enc m) = some m) ∧
    (∀ m k, k < (enc m).length → dec ((enc m).take k) = none) ∧ ∀ m, 0 < (enc m).length := by
  refine ⟨fun m => List.replicate m true ++ [false], fun l => if l.getLast? = some false then some (l.length - 1) else none, ?_, ?_, ?_⟩
  · intro m; simp
  · intro m k hk
    simp only [List.length_append, List.length_replicate, List.length_cons, List.length_nil] at hk
    rw [List.take_append_of_le_length (by simp; omega), List.take_replicate]
    refine if_neg ?_
    intro h
    have := List.mem_of_getLast? h
    simp at this
  · intro m; simp

/-! ## C56 -/

/-- C56, arrays.  A non-empty matrix whose entries can be stored is written, read back unchanged by the data reader, fits exactly the models
with that number of columns, and no other file changes. -/
theorem C56_matrix (cast : K → K) (fs : Files K) (M : Mat K) (f : String) (lvl : Nat) (hl : lvl < 10) (hn : 0 < M.nrows) (hc : 0 < M.cols)
    (hcast : ∀ r ∈ M.rows, ∀ x ∈ r, cast x = x) :
    ∃ fs', makeHdf5 cast fs (.mat M) f lvl = .ok fs' ∧ (∀ c r, checkOne fs' c (.path f) = .ok r ↔ c = M.cols ∧ r = some M) ∧ ∀ g, g ≠ f → fs' g = fs g := by
  have hM : M.map cast = M := by
    unfold Mat.map
    congr 1
    conv_rhs => rw [← List.map_id M.rows]
    apply List.map_congr_left
    intro r hr
    conv_rhs => rw [id, ← List.map_id r]
    exact List.map_congr_left (hcast r hr)
  refine ⟨fs.put f ⟨M, none, none⟩, ?_, ?_, ?_⟩
  · unfold makeHdf5 makeArray pyAssert
    simp only [hl, decide_true, if_true, hM]
    rw [if_neg (by omega)]
    rfl
  · intro c r
    rw [checkOne_iff]
    constructor
    · rintro ⟨h1, h2⟩
      cases h1 with
      | file f h hf hn =>
        simp only [Files.put, if_true, Option.some.injEq] at hf
        subst hf
        exact ⟨(h2 _ rfl).symm, rfl⟩
    · rintro ⟨rfl, rfl⟩
      refine ⟨Reads.file f ⟨M, none, none⟩ (by simp [Files.put]) hn, ?_⟩
      intro M' h
      injection h with h
      rw [h]
  · intro g hg
    unfold Files.put
    rw [if_neg hg]

/-- C56, vectors: a vector is stored as, and read back as, one column — the same as passing the vector itself. -/
theorem C56_vector (cast : K → K) (fs : Files K) (v : List K) (f : String) (lvl : Nat) (hl : lvl < 10) (hn : v ≠ []) (hcast : ∀ x ∈ v, cast x = x) :
    ∃ fs', makeHdf5 cast fs (.vec v) f lvl = .ok fs' ∧ (∀ c r, checkOne fs' c (.path f) = .ok r ↔ c = 1 ∧ r = some ⟨1, v.map fun x => [x]⟩) ∧
      (∀ c, checkOne fs' c (.path f) = checkOne fs' c (.vec v)) ∧ ∀ g, g ≠ f → fs' g = fs g := by
  have hpos : 0 < v.length := List.length_pos_iff.2 hn
  obtain ⟨fs', h1, h2, h3⟩ := C56_matrix cast fs ⟨1, v.map fun x => [x]⟩ f lvl hl (by simpa [Mat.nrows] using hpos) (by simp) (by
    intro r hr x hx
    simp only [List.mem_map] at hr
    obtain ⟨y, hy, rfl⟩ := hr
    simp only [List.mem_singleton] at hx
    subst hx
    exact hcast x hy)
  refine ⟨fs', ?_, h2, ?_, h3⟩
  · rw [← h1]
    unfold makeHdf5
    simp only [Mat.map, List.map_map]
    rfl
  · intro c
    by_cases hc : c = 1
    · subst hc
      rw [(h2 1 _).2 ⟨rfl, rfl⟩]
      rfl
    · cases hr : checkOne fs' c (.path f) with
      | ok r => exact absurd ((h2 c r).1 hr).1 hc
      | error e =>
        have hs : fs' f = some ⟨⟨1, v.map fun x => [x]⟩, none, none⟩ := by
          have := (checkOne_iff _ _ _ _).1 ((h2 1 _).2 ⟨rfl, rfl⟩)
          unfold makeHdf5 makeArray pyAssert at h1
          simp only [hl, decide_true, if_true, bind, Except.bind, pure, Except.pure] at h1
          rw [if_neg (by simp [Mat.nrows, Mat.map, hn])] at h1
          injection h1 with h1
          rw [← h1]
          have hcast' : v.map cast = v := by
            conv_rhs => rw [← List.map_id v]
            exact List.map_congr_left hcast
          simp only [Files.put, if_true, Mat.map, List.map_map]
          congr 3
          apply List.map_congr_left
          intro x hx
          simp [hcast x hx]
        rw [← hr]
        unfold checkOne
        simp only [hs, Mat.nrows, List.length_map]
        rw [if_neg (by omega)]

/-- C56, shapes: a pair of positive sizes gives the zero array of that shape. -/
theorem C56_zeros (cast : K → K) (fs : Files K) (r c : Nat) (f : String) (lvl : Nat) (hl : lvl < 10) (hr : 0 < r) (hc : 0 < c) :
    ∃ fs' M, makeHdf5 cast fs (.shape r c) f lvl = .ok fs' ∧ checkOne fs' c (.path f) = .ok (some M) ∧ M.nrows = r ∧ M.cols = c ∧
      (∀ i j, M.get i j = 0) ∧ ∀ g, g ≠ f → fs' g = fs g := by
  refine ⟨fs.put f ⟨Mat.zeros r c, none, none⟩, Mat.zeros r c, ?_, ?_, by simp [Mat.zeros], by simp [Mat.zeros], ?_, ?_⟩
  · unfold makeHdf5 makeArray pyAssert
    simp only [hl, decide_true, if_true]
    rw [if_neg (by simp [Mat.zeros]; omega)]
    rfl
  · rw [checkOne_iff]
    refine ⟨Reads.file f ⟨Mat.zeros r c, none, none⟩ (by simp [Files.put]) (by simp [Mat.zeros]; omega), ?_⟩
    intro M h
    injection h with h
    rw [← h]
    simp [Mat.zeros]
  · intro i j
    by_cases hi : i < r
    · by_cases hj : j < c
      · simp [Mat.zeros, Mat.get_ofFn_lt hi hj]
      · simp [Mat.get, Mat.zeros, Mat.ofFn, List.getD_eq_getElem?_getD, hi, hj]
    · simp [Mat.get, Mat.zeros, Mat.ofFn, List.getD_eq_getElem?_getD, hi]
  · intro g hg
    unfold Files.put
    rw [if_neg hg]

theorem appendRows_ok (cast : K → K) (c : Nat) (rs acc : List (List K)) (h : ∀ r ∈ rs, r.length = c) :
    appendRows cast c (rs.map some) acc = .ok (acc ++ rs.map (List.map cast)) := by
  induction rs generalizing acc with
  | nil => simp [appendRows]
  | cons r rs ih =>
    unfold appendRows
    simp only [List.map_cons]
    rw [if_pos (h r List.mem_cons_self), ih _ (fun x hx => h x (List.mem_cons_of_mem _ hx))]
    simp

theorem appendRows_error (cast : K → K) (c : Nat) (ls : List (Option (List K))) (acc : List (List K)) (h : ∃ l ∈ ls, ∀ r, l = some r → r.length ≠ c) :
    appendRows cast c ls acc = .error .valueError := by
  induction ls generalizing acc with
  | nil => obtain ⟨r, hr, _⟩ := h; cases hr
  | cons l ls ih =>
    obtain ⟨x, hx, hl⟩ := h
    cases l with
    | none => rfl
    | some r =>
      unfold appendRows
      by_cases hr : r.length = c
      · rw [if_pos hr]
        apply ih
        rcases List.mem_cons.1 hx with rfl | hx
        · exact absurd hr (hl r rfl)
        · exact ⟨x, hx, hl⟩
      · rw [if_neg hr]

/-- C56, text files: lines with equally many numbers are stored in their order and read back; if some line has another length than the first,
or something that is not a number, the call raises. -/
theorem C56_text (cast : K → K) (fs : Files K) (r : List K) (f : String) (lvl : Nat) (hl : lvl < 10) (hr : r ≠ []) :
    (∀ rs : List (List K), (∀ q ∈ r :: rs, ∀ x ∈ q, cast x = x) → (∀ q ∈ rs, q.length = r.length) →
      ∃ fs', makeHdf5 cast fs (.text ((r :: rs).map some)) f lvl = .ok fs' ∧
        checkOne fs' r.length (.path f) = .ok (some ⟨r.length, r :: rs⟩) ∧ ∀ g, g ≠ f → fs' g = fs g) ∧
    (∀ ls : List (Option (List K)), (∃ l ∈ ls, ∀ q, l = some q → q.length ≠ r.length) →
      makeHdf5 cast fs (.text (some r :: ls)) f lvl = .error .valueError) := by
  have h0 : r.length ≠ 0 := by simpa using hr
  constructor
  · intro rs hcast h
    have hmap : (r :: rs).map (List.map cast) = r :: rs := by
      conv_rhs => rw [← List.map_id (r :: rs)]
      apply List.map_congr_left
      intro q hq
      conv_rhs => rw [id, ← List.map_id q]
      exact List.map_congr_left (hcast q hq)
    refine ⟨fs.put f ⟨⟨r.length, r :: rs⟩, none, none⟩, ?_, ?_, ?_⟩
    · have := appendRows_ok cast r.length (r :: rs) [] (by
        intro q hq
        rcases List.mem_cons.1 hq with rfl | hq
        · rfl
        · exact h q hq)
      rw [hmap, List.map_cons] at this
      unfold makeHdf5 pyAssert
      simp only [hl, decide_true, if_true, List.map_cons]
      rw [this, if_neg h0]
      rfl
    · rw [checkOne_iff]
      refine ⟨Reads.file f ⟨⟨r.length, r :: rs⟩, none, none⟩ (by simp [Files.put]) (by simp [Mat.nrows]), ?_⟩
      intro M h
      injection h with h
      rw [← h]
    · intro g hg
      unfold Files.put
      rw [if_neg hg]
  · rintro ls ⟨q, hq, hlen⟩
    unfold makeHdf5 pyAssert
    simp only [hl, decide_true, if_true]
    rw [appendRows_error _ _ _ _ ⟨q, List.mem_cons_of_mem _ hq, hlen⟩, if_neg h0]
    rfl

example : (makeHdf5 (id : ℚ → ℚ) (fun _ => none) (.text [some [1, 2], some [3, 4]]) "f" 0 >>= fun fs => checkOne fs 2 (.path "f")) = .ok (some ⟨2, [[1, 2], [3, 4]]⟩) ∧
    (makeHdf5 (id : ℚ → ℚ) (fun _ => none) (.vec [1, 2, 3]) "f" 0 >>= fun fs => checkOne fs 1 (.path "f")) = .ok (some ⟨1, [[1], [2], [3]]⟩) ∧
    (makeHdf5 (id : ℚ → ℚ) (fun _ => none) (.shape 1 2) "f" 0 >>= fun fs => checkOne fs 2 (.path "f")) = .ok (some ⟨2, [[0, 0]]⟩) := by decide +kernel

/-! ## C57 -/

theorem batchedMean_append (g : K → K) (d : Nat) (rows : List (List K)) (batch : Nat) (as bs : List Nat) (acc : List K) :
    batchedMean g d rows batch (as ++ bs) acc = batchedMean g d rows batch bs (batchedMean g d rows batch as acc) := by
  induction as generalizing acc with
  | nil => rfl
  | cons a as ih =>
    simp only [List.cons_append, batchedMean]
    exact ih _

theorem take_step (rows : List (List K)) (k batch : Nat) :
    rows.take ((k + 1) * batch) = rows.take (k * batch) ++ (rows.take (k * batch + min batch (rows.length - k * batch))).drop (k * batch) := by
  have h1 : rows.take (k * batch + min batch (rows.length - k * batch)) = rows.take ((k + 1) * batch) := by
    rcases Nat.lt_or_ge (rows.length - k * batch) batch with h | h
    · rw [min_eq_right h.le]
      have : (k + 1) * batch = k * batch + batch := by ring
      rw [List.take_of_length_le (by omega), List.take_of_length_le (by omega)]
    · rw [min_eq_left h]
      congr 1
      ring
  rw [h1]
  have h2 : rows.take (k * batch) = (rows.take ((k + 1) * batch)).take (k * batch) := by
    rw [List.take_take, min_eq_left (Nat.mul_le_mul_right _ (Nat.le_succ k))]
  conv_lhs => rw [← List.take_append_drop (k * batch) (rows.take ((k + 1) * batch))]
  rw [← h2]

theorem batchedMean_range (g : K → K) [CharZero K] (d : Nat) (rows : List (List K)) (batch k : Nat) :
    (batchedMean g d rows batch (List.range k) (List.replicate d 0)).length = d ∧
    ∀ j < d, (batchedMean g d rows batch (List.range k) (List.replicate d 0)).getD j 0 =
      ((rows.take (k * batch)).map fun r => g (r.getD j 0)).sum / (rows.length : K) := by
  induction k with
  | zero =>
    refine ⟨by simp [batchedMean], ?_⟩
    intro j hj
    simp [batchedMean, List.getD_eq_getElem?_getD, hj]
  | succ k ih =>
    obtain ⟨ih1, ih2⟩ := ih
    rw [List.range_succ, batchedMean_append]
    simp only [batchedMean]
    constructor
    · rw [List.length_zipWith, ih1]
      simp [colMeans]
    · intro j hj
      have hj1 := ih2 j hj
      rw [List.getD_eq_getElem?_getD, List.getElem?_eq_getElem (by rw [ih1]; exact hj)] at hj1
      simp only [Option.getD_some] at hj1
      rw [List.getD_eq_getElem?_getD, List.getElem?_eq_getElem (by rw [List.length_zipWith, ih1]; simp [colMeans, hj])]
      simp only [Option.getD_some, List.getElem_zipWith, hj1]
      rw [take_step, List.map_append, List.sum_append, add_div]
      congr 1
      simp only [colMeans, List.getElem_map, List.getElem_range]
      obtain ⟨B, hB⟩ : ∃ B, B = (rows.take (k * batch + min batch (rows.length - k * batch))).drop (k * batch) := ⟨_, rfl⟩
      rw [← hB]
      have hlen : B.length = min batch (rows.length - k * batch) := by
        rw [hB, List.length_drop, List.length_take]
        omega
      rw [hlen]
      by_cases h0 : ((min batch (rows.length - k * batch) : Nat) : K) = 0
      · have h0' := Nat.cast_eq_zero.1 h0
        rw [h0'] at hlen
        have := List.eq_nil_of_length_eq_zero hlen
        rw [this]
        simp
      · rw [div_mul_div_comm, mul_comm, mul_div_mul_left _ _ h0]

theorem normBatches_cover (N : Nat) {batch : Nat} (hb : 0 < batch) : N ≤ normBatches N batch * batch := by
  unfold normBatches
  split
  · have := Nat.div_add_mod N batch
    have h2 := Nat.mod_lt N hb
    rw [add_mul, one_mul]
    rw [mul_comm] at this
    omega
  · rw [Nat.add_zero]
    omega

theorem sum_map_rows {M : Mat K} (g : K → K) (j : Nat) :
    (M.rows.map fun r => g (r.getD j 0)).sum = ∑ s ∈ range M.nrows, g (M.get s j) := by
  rw [sum_list_rows M.rows [] (fun r => g (r.getD j 0))]
  rfl

theorem batchedMean_eq [CharZero K] (g : K → K) (M : Mat K) {batch : Nat} (hb : 0 < batch) :
    (batchedMean g M.cols M.rows batch (List.range (normBatches M.nrows batch)) (List.replicate M.cols 0)).length = M.cols ∧
    ∀ j < M.cols, (batchedMean g M.cols M.rows batch (List.range (normBatches M.nrows batch)) (List.replicate M.cols 0)).getD j 0 =
      (∑ s ∈ range M.nrows, g (M.get s j)) / (M.nrows : K) := by
  obtain ⟨h1, h2⟩ := batchedMean_range g M.cols M.rows batch (normBatches M.nrows batch)
  refine ⟨h1, fun j hj => ?_⟩
  rw [h2 j hj, List.take_of_length_le (normBatches_cover M.nrows hb), sum_map_rows]
  rfl

theorem colVar_eq [CharZero K] {M : Mat K} (hn : 0 < M.nrows) (j : Nat) :
    (∑ s ∈ range M.nrows, M.get s j * M.get s j) / (M.nrows : K) - colMean M j * colMean M j = colVar M j := by
  have h0 : (M.nrows : K) ≠ 0 := by
    have := hn.ne'
    exact_mod_cast this
  unfold colVar
  have h1 : ∑ s ∈ range M.nrows, (M.get s j - colMean M j) ^ 2 =
      ∑ s ∈ range M.nrows, M.get s j * M.get s j - 2 * colMean M j * ∑ s ∈ range M.nrows, M.get s j + M.nrows * (colMean M j * colMean M j) := by
    have : ∀ s, (M.get s j - colMean M j) ^ 2 = M.get s j * M.get s j - 2 * colMean M j * M.get s j + colMean M j * colMean M j := by intro s; ring
    simp only [this, Finset.sum_add_distrib, Finset.sum_sub_distrib, ← Finset.mul_sum, Finset.sum_const, Finset.card_range, nsmul_eq_mul]
    ring
  have h2 : ∑ s ∈ range M.nrows, M.get s j = M.nrows * colMean M j := by
    unfold colMean
    rw [mul_div_cancel₀ _ h0]
  rw [h1, h2]
  field_simp
  ring

/-- The parameters a call without (both) parameters computes for a file that has none yet. -/
theorem normalize_fresh (env : Env K) (fs : Files K) (f : String) (h : H5 K) (mean std : Option (List K)) (batch : Option Nat) (chunk : Nat)
    (hf : fs f = some h) (hm : h.mean = none) (hgiven : ¬ (mean.isSome ∧ std.isSome)) (hb : 0 < batch.getD chunk) :
    normalizeHdf5 env fs f mean std batch chunk =
      let Ex := batchedMean id h.data.cols h.data.rows (batch.getD chunk) (List.range (normBatches h.data.nrows (batch.getD chunk))) (List.replicate h.data.cols 0)
      let Ex2 := batchedMean (fun x => x * x) h.data.cols h.data.rows (batch.getD chunk) (List.range (normBatches h.data.nrows (batch.getD chunk))) (List.replicate h.data.cols 0)
      let std := List.zipWith (fun a b => env.sqrt (a - b * b)) Ex2 Ex
      .ok ((Ex, std), fs.put f { h with mean := some Ex, std := some std }) := by
  unfold normalizeHdf5
  simp only [hf]
  rw [if_neg hb.ne']
  cases mean with
  | none => simp only [hm]; rfl
  | some m =>
    cases std with
    | none => simp only [hm]; rfl
    | some t => exact absurd ⟨rfl, rfl⟩ hgiven

/-- C57.  For a file that was not normalized before, and for every batch size (given or the file's own), the returned and stored
parameters are the column means and the non-negative square roots of the column variances — and those only: the lists have one entry per
column.  (A call that gives only one of the two parameters does the same.) -/
theorem C57_parameters [IsStrictOrderedRing K] (env : Env K) (hsq : ∀ x : K, 0 ≤ x → 0 ≤ env.sqrt x ∧ env.sqrt x * env.sqrt x = x)
    (fs : Files K) (f : String) (h : H5 K) (mean std : Option (List K)) (batch : Option Nat) (chunk : Nat)
    (hf : fs f = some h) (hn : 0 < h.data.nrows) (hm : h.mean = none) (hgiven : ¬ (mean.isSome ∧ std.isSome)) (hb : 0 < batch.getD chunk) :
    ∃ m s fs', normalizeHdf5 env fs f mean std batch chunk = .ok ((m, s), fs') ∧ m.length = h.data.cols ∧ s.length = h.data.cols ∧
      (∀ j < h.data.cols, m.getD j 0 = colMean h.data j ∧ 0 ≤ s.getD j 0 ∧ s.getD j 0 * s.getD j 0 = colVar h.data j) ∧
      fs' f = some { h with mean := some m, std := some s } ∧ ∀ g, g ≠ f → fs' g = fs g := by
  obtain ⟨a1, a2⟩ := batchedMean_eq (id : K → K) h.data hb
  obtain ⟨b1, b2⟩ := batchedMean_eq (fun x : K => x * x) h.data hb
  refine ⟨_, _, _, normalize_fresh env fs f h mean std batch chunk hf hm hgiven hb, a1, ?_, ?_, by simp [Files.put], ?_⟩
  · rw [List.length_zipWith, a1, b1, min_self]
  · intro j hj
    have hmean : (batchedMean id h.data.cols h.data.rows (batch.getD chunk) (List.range (normBatches h.data.nrows (batch.getD chunk))) (List.replicate h.data.cols 0)).getD j 0
        = colMean h.data j := a2 j hj
    have hz : (List.zipWith (fun a b => env.sqrt (a - b * b))
        (batchedMean (fun x : K => x * x) h.data.cols h.data.rows (batch.getD chunk) (List.range (normBatches h.data.nrows (batch.getD chunk))) (List.replicate h.data.cols 0))
        (batchedMean id h.data.cols h.data.rows (batch.getD chunk) (List.range (normBatches h.data.nrows (batch.getD chunk))) (List.replicate h.data.cols 0))).getD j 0
        = env.sqrt (colVar h.data j) := by
      rw [← colVar_eq hn j, ← b2 j hj, ← hmean]
      rw [List.getD_eq_getElem?_getD, List.getD_eq_getElem?_getD, List.getD_eq_getElem?_getD, List.getElem?_eq_getElem (by rw [List.length_zipWith, a1, b1, min_self]; exact hj),
        List.getElem?_eq_getElem (by rw [b1]; exact hj), List.getElem?_eq_getElem (by rw [a1]; exact hj)]
      simp
    have hv : 0 ≤ colVar h.data j := by
      unfold colVar
      exact div_nonneg (Finset.sum_nonneg fun s _ => sq_nonneg _) (Nat.cast_nonneg _)
    simp only [hz]
    exact ⟨hmean, hsq _ hv⟩
  · intro g hg
    unfold Files.put
    rw [if_neg hg]

theorem list_ext_getD {l l' : List K} (hl : l.length = l'.length) (h : ∀ j < l.length, l.getD j 0 = l'.getD j 0) : l = l' := by
  apply List.ext_getElem hl
  intro i h1 h2
  have := h i h1
  rwa [List.getD_eq_getElem?_getD, List.getD_eq_getElem?_getD, List.getElem?_eq_getElem h1, List.getElem?_eq_getElem h2] at this

/-- C57: any two batch sizes give the same parameters and the same file, without any assumption on the square root. -/
theorem C57_batch_size [IsStrictOrderedRing K] (env : Env K) (fs : Files K) (f : String) (h : H5 K) (b1 b2 : Option Nat) (c1 c2 : Nat)
    (hf : fs f = some h) (hm : h.mean = none) (h1 : 0 < b1.getD c1) (h2 : 0 < b2.getD c2) :
    normalizeHdf5 env fs f none none b1 c1 = normalizeHdf5 env fs f none none b2 c2 := by
  rw [normalize_fresh env fs f h none none b1 c1 hf hm (by simp) h1, normalize_fresh env fs f h none none b2 c2 hf hm (by simp) h2]
  have key : ∀ g : K → K, batchedMean g h.data.cols h.data.rows (b1.getD c1) (List.range (normBatches h.data.nrows (b1.getD c1))) (List.replicate h.data.cols 0) =
      batchedMean g h.data.cols h.data.rows (b2.getD c2) (List.range (normBatches h.data.nrows (b2.getD c2))) (List.replicate h.data.cols 0) := by
    intro g
    obtain ⟨p1, p2⟩ := batchedMean_eq g h.data h1
    obtain ⟨q1, q2⟩ := batchedMean_eq g h.data h2
    apply list_ext_getD (by rw [p1, q1])
    intro j hj
    rw [p1] at hj
    rw [p2 j hj, q2 j hj]
  simp only [key]

/-! ## C58 -/

theorem applyNorm_append (f : List K → List K) (batch : Nat) (as bs : List Nat) (rows : List (List K)) :
    applyNorm f batch (as ++ bs) rows = applyNorm f batch bs (applyNorm f batch as rows) := by
  induction as generalizing rows with
  | nil => rfl
  | cons a as ih =>
    simp only [List.cons_append, applyNorm]
    exact ih _

theorem applyNorm_range (f : List K → List K) (batch k : Nat) (rows : List (List K)) :
    applyNorm f batch (List.range k) rows = (rows.take (k * batch)).map f ++ rows.drop (k * batch) := by
  induction k with
  | zero => simp [applyNorm]
  | succ k ih =>
    rw [List.range_succ, applyNorm_append, ih]
    simp only [applyNorm]
    have hl : ((rows.take (k * batch)).map f ++ rows.drop (k * batch)).length = rows.length := by
      simp only [List.length_append, List.length_map, List.length_take, List.length_drop]
      omega
    rw [hl, take_step, List.map_append]
    rcases Nat.lt_or_ge (k * batch) rows.length with h | h
    · have hA : ((rows.take (k * batch)).map f).length = k * batch := by
        rw [List.length_map, List.length_take, min_eq_left h.le]
      have e1 : ((rows.take (k * batch)).map f ++ rows.drop (k * batch)).take (k * batch) = (rows.take (k * batch)).map f := by
        rw [List.take_append_of_le_length (by rw [hA]), List.take_of_length_le (by rw [hA])]
      have e2 : (((rows.take (k * batch)).map f ++ rows.drop (k * batch)).take (k * batch + min batch (rows.length - k * batch))).drop (k * batch) =
          (rows.take (k * batch + min batch (rows.length - k * batch))).drop (k * batch) := by
        rw [List.drop_take, List.drop_take]
        congr 1
        rw [List.drop_append_of_le_length (by rw [hA]), List.drop_of_length_le (by rw [hA])]
        rfl
      have e3 : ((rows.take (k * batch)).map f ++ rows.drop (k * batch)).drop (k * batch + min batch (rows.length - k * batch)) = rows.drop ((k + 1) * batch) := by
        rw [← List.drop_drop, List.drop_append_of_le_length (by rw [hA]), List.drop_of_length_le (l := List.map f _) (by rw [hA]), List.nil_append, List.drop_drop]
        rcases Nat.lt_or_ge (rows.length - k * batch) batch with h' | h'
        · have : (k + 1) * batch = k * batch + batch := by ring
          rw [min_eq_right h'.le, List.drop_of_length_le (by omega), List.drop_of_length_le (by omega)]
        · rw [min_eq_left h']
          congr 1
          ring
      rw [e1, e2, e3]
    · have h' : rows.length ≤ (k + 1) * batch := by
        have : (k + 1) * batch = k * batch + batch := by ring
        omega
      have e0 : min batch (rows.length - k * batch) = 0 := by omega
      rw [e0, Nat.add_zero, List.drop_of_length_le h, List.drop_of_length_le h', List.take_of_length_le (l := rows) h]
      simp only [List.append_nil]
      rw [List.take_of_length_le (by rw [List.length_map]; exact h), List.drop_of_length_le (l := List.map f rows) (by rw [List.length_map]; exact h)]
      simp
      exact h

theorem applyNorm_all (f : List K → List K) {batch : Nat} (hb : 0 < batch) (rows : List (List K)) :
    applyNorm f batch (List.range (normBatches rows.length batch)) rows = rows.map f := by
  rw [applyNorm_range, List.take_of_length_le (normBatches_cover _ hb), List.drop_of_length_le (normBatches_cover _ hb), List.append_nil]

/-- C58, the part that holds: a call with both parameters given (and of the right length) replaces every entry `x` of column `j` by
`(x - mean j) / std j`, with `std j` replaced by `1` where it is zero, exactly once, for every batch size; no other file changes.

Missing for the full property: a call without parameters never changes the data (`C58_not_applied_refuted`), repeating such a call raises
(`C58_repeat_refuted`), repeating a call with parameters normalizes again (`C58_twice_refuted`). -/
theorem C58_explicit_partial (env : Env K) (fs : Files K) (f : String) (h : H5 K) (mean std : List K) (batch : Option Nat) (chunk : Nat)
    (hf : fs f = some h) (hw : h.data.WF) (hb : 0 < batch.getD chunk) (h1 : mean.length = h.data.cols) (h2 : std.length = h.data.cols) :
    ∃ fs' M, normalizeHdf5 env fs f (some mean) (some std) batch chunk = .ok ((mean, std.map fun s => if s = 0 then 1 else s), fs') ∧
      fs' f = some ⟨M, some mean, some std⟩ ∧ M.WF ∧ M.nrows = h.data.nrows ∧ M.cols = h.data.cols ∧
      (∀ s < h.data.nrows, ∀ j < h.data.cols, M.get s j = (h.data.get s j - mean.getD j 0) / (if std.getD j 0 = 0 then 1 else std.getD j 0)) ∧
      ∀ g, g ≠ f → fs' g = fs g := by
  obtain ⟨nr, hnr⟩ : ∃ nr, nr = normRow mean (std.map fun s => if s = 0 then (1 : K) else s) := ⟨_, rfl⟩
  refine ⟨fs.put f ⟨⟨h.data.cols, h.data.rows.map nr⟩, some mean, some std⟩, ⟨h.data.cols, h.data.rows.map nr⟩, ?_, by simp [Files.put], ?_, by simp [Mat.nrows], rfl, ?_, ?_⟩
  · unfold normalizeHdf5 pyAssert
    simp only [hf]
    rw [if_neg hb.ne']
    simp only [h1, h2, decide_true, if_true]
    have : normBatches h.data.nrows (batch.getD chunk) = normBatches h.data.rows.length (batch.getD chunk) := rfl
    rw [this, applyNorm_all _ hb, ← hnr]
    rfl
  · intro r hr
    simp only [List.mem_map] at hr
    obtain ⟨q, hq, rfl⟩ := hr
    rw [hnr]
    simp [normRow, h1, h2, hw q hq]
  · intro s hs j hj
    have hs' : s < h.data.rows.length := hs
    have hq : (h.data.rows[s]).length = h.data.cols := hw _ (List.getElem_mem hs')
    have hjm : j < mean.length := by omega
    have hjs : j < std.length := by omega
    simp only [Mat.get, List.getD_eq_getElem?_getD, List.getElem?_map, List.getElem?_eq_getElem hs', Option.map_some, Option.getD_some, hnr, normRow,
      List.getElem?_zipWith, List.getElem?_eq_getElem hjm, List.getElem?_eq_getElem hjs, List.getElem?_eq_getElem (show j < (h.data.rows[s]).length by omega),
      List.getElem?_zip_eq_some, List.zip, List.length_map]
  · intro g hg
    unfold Files.put
    rw [if_neg hg]

/-- C58, what does normalize a file: computing the parameters with one call and applying them with a second one.  Every column then has mean 0,
and variance 1, or 0 if it was constant. -/
theorem C58_two_calls_partial [IsStrictOrderedRing K] (env : Env K) (hsq : ∀ x : K, 0 ≤ x → 0 ≤ env.sqrt x ∧ env.sqrt x * env.sqrt x = x)
    (fs : Files K) (f : String) (h : H5 K) (b1 b2 : Option Nat) (c1 c2 : Nat) (hf : fs f = some h) (hw : h.data.WF) (hn : 0 < h.data.nrows) (hm : h.mean = none)
    (hb1 : 0 < b1.getD c1) (hb2 : 0 < b2.getD c2) :
    ∃ m s fs1 p fs2 M, normalizeHdf5 env fs f none none b1 c1 = .ok ((m, s), fs1) ∧
      normalizeHdf5 env fs1 f (some m) (some s) b2 c2 = .ok (p, fs2) ∧ fs2 f = some M ∧ M.data.nrows = h.data.nrows ∧ M.data.cols = h.data.cols ∧
      ∀ j < h.data.cols, colMean M.data j = 0 ∧ colVar M.data j = if colVar h.data j = 0 then 0 else 1 := by
  obtain ⟨m, s, fs1, k1, k2, k3, k4, k5, _⟩ := C57_parameters env hsq fs f h none none b1 c1 hf hn hm (by simp) hb1
  obtain ⟨fs2, M, l1, l2, l3, l4, l5, l6, _⟩ := C58_explicit_partial env fs1 f { h with mean := some m, std := some s } m s b2 c2 k5 hw hb2 k2 k3
  refine ⟨m, s, fs1, _, fs2, _, k1, l1, l2, l4, l5, ?_⟩
  intro j hj
  obtain ⟨e1, e2, e3⟩ := k4 j hj
  have h0 : (h.data.nrows : K) ≠ 0 := by
    have := hn.ne'
    exact_mod_cast this
  obtain ⟨t, ht⟩ : ∃ t, t = if s.getD j 0 = 0 then (1 : K) else s.getD j 0 := ⟨_, rfl⟩
  have hget : ∀ q < h.data.nrows, M.get q j = (h.data.get q j - colMean h.data j) / t := by
    intro q hq
    rw [l6 q hq j hj, e1, ht]
  have hmean : colMean M j = 0 := by
    unfold colMean
    rw [l4]
    have : ∑ q ∈ range h.data.nrows, M.get q j = (∑ q ∈ range h.data.nrows, (h.data.get q j - colMean h.data j)) / t := by
      rw [Finset.sum_div]
      exact Finset.sum_congr rfl fun q hq => hget q (Finset.mem_range.1 hq)
    simp only at this ⊢
    rw [this, Finset.sum_sub_distrib, Finset.sum_const, Finset.card_range, nsmul_eq_mul]
    have : (h.data.nrows : K) * colMean h.data j = ∑ q ∈ range h.data.nrows, h.data.get q j := by
      unfold colMean
      rw [mul_div_cancel₀ _ h0]
    rw [this]
    simp
  refine ⟨hmean, ?_⟩
  have hvar : colVar M j = colVar h.data j / (t * t) := by
    unfold colVar
    rw [hmean, l4]
    have : ∑ q ∈ range h.data.nrows, (M.get q j - 0) ^ 2 = (∑ q ∈ range h.data.nrows, (h.data.get q j - colMean h.data j) ^ 2) / (t * t) := by
      rw [Finset.sum_div]
      apply Finset.sum_congr rfl
      intro q hq
      rw [hget q (Finset.mem_range.1 hq), sub_zero, div_pow, pow_two t]
    simp only at this ⊢
    rw [this, div_right_comm]
  rw [hvar, ← e3]
  by_cases hz : s.getD j 0 = 0
  · rw [hz]; simp
  · rw [if_neg (mul_ne_zero hz hz), ht, if_neg hz]
    exact div_self (mul_ne_zero hz hz)

/-- C58 is false: for every file that was not normalized before, a call without parameters leaves the data as they were. -/
theorem C58_not_applied_refuted (env : Env K) (fs fs' : Files K) (f : String) (h : H5 K) (batch : Option Nat) (chunk : Nat) (p : List K × List K)
    (hf : fs f = some h) (hm : h.mean = none) (hok : normalizeHdf5 env fs f none none batch chunk = .ok (p, fs')) :
    (fs' f).map (·.data) = some h.data := by
  by_cases hb : 0 < batch.getD chunk
  · rw [normalize_fresh env fs f h none none batch chunk hf hm (by simp) hb] at hok
    injection hok with hok
    injection hok with _ hok
    rw [← hok]
    simp [Files.put]
  · unfold normalizeHdf5 at hok
    simp only [hf] at hok
    rw [if_pos (by omega)] at hok
    cases hok

/-- C58 is false: after any successful call, a call without parameters raises, for every file and batch size. -/
theorem C58_repeat_refuted (env : Env K) (fs fs' : Files K) (f : String) (mean std : Option (List K)) (batch : Option Nat) (chunk : Nat) (p : List K × List K)
    (hok : normalizeHdf5 env fs f mean std batch chunk = .ok (p, fs')) (batch' : Option Nat) (chunk' : Nat) (hb : 0 < batch'.getD chunk') :
    normalizeHdf5 env fs' f none none batch' chunk' = .error .ioError := by
  have hm : ∃ h m, fs' f = some h ∧ h.mean = some m := by
    unfold normalizeHdf5 at hok
    cases hf : fs f with
    | none => rw [hf] at hok; cases hok
    | some h =>
      simp only [hf] at hok
      by_cases h0 : batch.getD chunk = 0
      · rw [if_pos h0] at hok; cases hok
      rw [if_neg h0] at hok
      cases mean with
      | none =>
        simp only at hok
        cases hmm : h.mean with
        | none =>
          simp only [hmm] at hok
          injection hok with hok
          injection hok with _ hok
          rw [← hok]
          exact ⟨_, _, if_pos rfl, rfl⟩
        | some m => simp only [hmm] at hok; cases hok
      | some m =>
        cases std with
        | none =>
          simp only at hok
          cases hmm : h.mean with
          | none =>
            simp only [hmm] at hok
            injection hok with hok
            injection hok with _ hok
            rw [← hok]
            exact ⟨_, _, if_pos rfl, rfl⟩
          | some m => simp only [hmm] at hok; cases hok
        | some t =>
          simp only at hok
          unfold pyAssert at hok
          split at hok
          · split at hok
            · injection hok with hok
              injection hok with _ hok
              rw [← hok]
              exact ⟨_, _, if_pos rfl, rfl⟩
            · cases hok
          · cases hok
  obtain ⟨h, m, h1, h2⟩ := hm
  unfold normalizeHdf5
  simp only [h1]
  rw [if_neg hb.ne']
  simp only [h2]

/-- A file with two columns, one of them constant. -/
def normFiles : Files ℚ := fun f => if f = "f" then some ⟨⟨2, [[1, 5], [3, 5], [5, 5], [7, 5], [9, 5]]⟩, none, none⟩ else none

/-- C58 is false: a second call with the same parameters normalizes the normalized data again. -/
theorem C58_twice_refuted :
    (normalizeHdf5 QEnv.env normFiles "f" (some [5, 5]) (some [2, 0]) (some 2) 1).map (fun r => ((r.2 "f").map (·.data), r.1)) =
      .ok (some ⟨2, [[-2, 0], [-1, 0], [0, 0], [1, 0], [2, 0]]⟩, ([5, 5], [2, 1])) ∧
    (normalizeHdf5 QEnv.env normFiles "f" (some [5, 5]) (some [2, 0]) (some 2) 1 >>= fun r =>
      normalizeHdf5 QEnv.env r.2 "f" (some [5, 5]) (some [2, 1]) (some 2) 1).map (fun r => (r.2 "f").map (·.data)) =
      .ok (some ⟨2, [[-7 / 2, -5], [-3, -5], [-5 / 2, -5], [-2, -5], [-3 / 2, -5]]⟩) := by decide +kernel

/-- The hypotheses of C57 and C58 are met; the parameters of the example file (the variance of the first column is 8, of the second 0). -/
example : normFiles "f" = some ⟨⟨2, [[1, 5], [3, 5], [5, 5], [7, 5], [9, 5]]⟩, none, none⟩ ∧
    (normalizeHdf5 QEnv.env normFiles "f" none none (some 2) 1).map (·.1.1) = .ok [5, 5] ∧
    (normalizeHdf5 QEnv.env normFiles "f" none none none 3).map (·.1.1) = .ok [5, 5] ∧
    colVar (⟨2, [[1, 5], [3, 5], [5, 5], [7, 5], [9, 5]]⟩ : Mat ℚ) 0 = 8 ∧ colVar (⟨2, [[1, 5], [3, 5], [5, 5], [7, 5], [9, 5]]⟩ : Mat ℚ) 1 = 0 := by
  refine ⟨rfl, by decide +kernel, by decide +kernel, ?_, ?_⟩ <;>
    norm_num [colVar, colMean, Mat.nrows, Mat.get, Finset.sum_range_succ]

end Hpelm.Props
