import Verif.Model.Basic
import Mathlib.Algebra.BigOperators.Group.List.Basic
import Mathlib.Algebra.BigOperators.Ring.List
import Mathlib.Tactic.Ring
import Mathlib.Tactic.Linarith

/-! Helper lemmas about `Mat`. -/

namespace Hpelm
variable {K : Type}

namespace Mat

@[simp] theorem nrows_mk (c : Nat) (rows : List (List K)) : (Mat.mk c rows).nrows = rows.length := rfl

@[simp] theorem ofFn_cols (r c : Nat) (f : Nat → Nat → K) : (ofFn r c f).cols = c := rfl

@[simp] theorem ofFn_nrows (r c : Nat) (f : Nat → Nat → K) : (ofFn r c f).nrows = r := by simp [ofFn, nrows]

theorem ofFn_WF (r c : Nat) (f : Nat → Nat → K) : (ofFn r c f).WF := by
  intro row h
  simp only [ofFn, List.mem_map] at h
  obtain ⟨i, _, rfl⟩ := h
  simp [ofFn]

theorem get_ofFn [Zero K] (r c : Nat) (f : Nat → Nat → K) (i j : Nat) :
    (ofFn r c f).get i j = if i < r ∧ j < c then f i j else 0 := by
  unfold get ofFn
  by_cases hi : i < r
  · by_cases hj : j < c
    · simp [hi, hj, List.getD_eq_getElem?_getD]
    · simp [hi, hj, List.getD_eq_getElem?_getD]
  · simp [hi, List.getD_eq_getElem?_getD]

theorem get_ofFn_lt [Zero K] {r c : Nat} {f : Nat → Nat → K} {i j : Nat} (hi : i < r) (hj : j < c) :
    (ofFn r c f).get i j = f i j := by simp [get_ofFn, hi, hj]

theorem get_ge_rows [Zero K] (A : Mat K) {i j : Nat} (h : A.nrows ≤ i) : A.get i j = 0 := by
  unfold get nrows at *
  simp [List.getD_eq_getElem?_getD, List.getElem?_eq_none h]

theorem get_ge_cols [Zero K] (A : Mat K) (hA : A.WF) {i j : Nat} (h : A.cols ≤ j) : A.get i j = 0 := by
  unfold get
  by_cases hi : i < A.rows.length
  · have := hA _ (List.getElem_mem hi)
    simp only [List.getD_eq_getElem?_getD, List.getElem?_eq_getElem hi, Option.getD_some]
    rw [List.getElem?_eq_none (by omega)]; rfl
  · simp [List.getD_eq_getElem?_getD, List.getElem?_eq_none (by omega : A.rows.length ≤ i)]

theorem ext_get [Zero K] {A B : Mat K} (hA : A.WF) (hB : B.WF) (hr : A.nrows = B.nrows) (hc : A.cols = B.cols)
    (h : ∀ i j, i < A.nrows → j < A.cols → A.get i j = B.get i j) : A = B := by
  cases A with
  | mk c rows =>
  cases B with
  | mk c' rows' =>
  simp only [nrows, WF] at *
  subst hc
  congr 1
  apply List.ext_getElem hr
  intro i hi hi'
  have h1 := hA _ (List.getElem_mem hi)
  have h2 := hB _ (List.getElem_mem hi')
  apply List.ext_getElem (by rw [h1, h2])
  intro j hj hj'
  have := h i j hi (by omega)
  simpa [get, List.getD_eq_getElem?_getD, List.getElem?_eq_getElem, hi, hi', hj, hj'] using this

theorem ofFn_get_self [Zero K] {A : Mat K} (hA : A.WF) : ofFn A.nrows A.cols A.get = A := by
  apply ext_get (ofFn_WF _ _ _) hA (by simp) (by simp)
  intro i j hi hj
  simp only [ofFn_nrows, ofFn_cols] at hi hj
  rw [get_ofFn_lt hi hj]

theorem ofFn_congr {r c : Nat} {f g : Nat → Nat → K} (h : ∀ i j, i < r → j < c → f i j = g i j) :
    ofFn r c f = ofFn r c g := by
  unfold ofFn
  congr 1
  apply List.map_congr_left
  intro i hi
  apply List.map_congr_left
  intro j hj
  exact h i j (List.mem_range.1 hi) (List.mem_range.1 hj)

theorem ofFn_inj [Zero K] {r c : Nat} {f g : Nat → Nat → K} (h : ofFn r c f = ofFn r c g) :
    ∀ i j, i < r → j < c → f i j = g i j := by
  intro i j hi hj
  rw [← get_ofFn_lt (f := f) hi hj, h, get_ofFn_lt hi hj]

@[simp] theorem zeros_cols [Zero K] (r c : Nat) : (zeros r c : Mat K).cols = c := rfl
@[simp] theorem zeros_nrows [Zero K] (r c : Nat) : (zeros r c : Mat K).nrows = r := by simp [zeros]
@[simp] theorem diag_cols [Zero K] (n : Nat) (v : K) : (diag n v).cols = n := rfl
@[simp] theorem diag_nrows [Zero K] (n : Nat) (v : K) : (diag n v).nrows = n := by simp [diag]
@[simp] theorem add_cols [Zero K] [Add K] (A B : Mat K) : (A.add B).cols = A.cols := rfl
@[simp] theorem add_nrows [Zero K] [Add K] (A B : Mat K) : (A.add B).nrows = A.nrows := by simp [add]
@[simp] theorem tmul_cols [Zero K] [Add K] [Mul K] (A B : Mat K) : (A.tmul B).cols = B.cols := rfl
@[simp] theorem tmul_nrows [Zero K] [Add K] [Mul K] (A B : Mat K) : (A.tmul B).nrows = A.cols := by simp [tmul]
@[simp] theorem mul_cols [Zero K] [Add K] [Mul K] (A B : Mat K) : (A.mul B).cols = B.cols := rfl
@[simp] theorem mul_nrows [Zero K] [Add K] [Mul K] (A B : Mat K) : (A.mul B).nrows = A.nrows := by simp [mul, nrows]
@[simp] theorem map_cols (f : K → K) (A : Mat K) : (A.map f).cols = A.cols := rfl
@[simp] theorem map_nrows (f : K → K) (A : Mat K) : (A.map f).nrows = A.nrows := by simp [map, nrows]
@[simp] theorem map_rows (f : K → K) (A : Mat K) : (A.map f).rows = A.rows.map (List.map f) := rfl
@[simp] theorem selCols_cols [Zero K] (M : Mat K) (idx : List Nat) : (M.selCols idx).cols = idx.length := rfl
@[simp] theorem selCols_nrows [Zero K] (M : Mat K) (idx : List Nat) : (M.selCols idx).nrows = M.nrows := by
  simp [selCols, nrows]
@[simp] theorem selRows_cols [Zero K] (M : Mat K) (idx : List Nat) : (M.selRows idx).cols = M.cols := rfl
@[simp] theorem selRows_nrows [Zero K] (M : Mat K) (idx : List Nat) : (M.selRows idx).nrows = idx.length := by
  simp [selRows, nrows]

theorem zeros_WF [Zero K] (r c : Nat) : (zeros r c : Mat K).WF := ofFn_WF _ _ _
theorem diag_WF [Zero K] (n : Nat) (v : K) : (diag n v).WF := ofFn_WF _ _ _
theorem add_WF [Zero K] [Add K] (A B : Mat K) : (A.add B).WF := ofFn_WF _ _ _
theorem tmul_WF [Zero K] [Add K] [Mul K] (A B : Mat K) : (A.tmul B).WF := ofFn_WF _ _ _
theorem mul_WF [Zero K] [Add K] [Mul K] (A B : Mat K) : (A.mul B).WF := by
  intro r h
  simp only [mul, List.mem_map] at h
  obtain ⟨a, _, rfl⟩ := h
  simp [mul, vecMul]
theorem map_WF {f : K → K} {A : Mat K} (h : A.WF) : (A.map f).WF := by
  intro r hr
  simp only [map, List.mem_map] at hr
  obtain ⟨a, ha, rfl⟩ := hr
  simpa [map] using h a ha
theorem selCols_WF [Zero K] (M : Mat K) (idx : List Nat) : (M.selCols idx).WF := by
  intro r h
  simp only [selCols, List.mem_map] at h
  obtain ⟨a, _, rfl⟩ := h
  simp [selCols]

theorem get_zeros [Zero K] (r c i j : Nat) : (zeros r c : Mat K).get i j = 0 := by
  simp [zeros, get_ofFn]

theorem get_diag [Zero K] {n : Nat} {v : K} {i j : Nat} (hi : i < n) (hj : j < n) :
    (diag n v).get i j = if i = j then v else 0 := by simp [diag, get_ofFn, hi, hj]

theorem get_add [Zero K] [Add K] {A B : Mat K} {i j : Nat} (hi : i < A.nrows) (hj : j < A.cols) :
    (A.add B).get i j = A.get i j + B.get i j := by simp [add, get_ofFn, hi, hj]

theorem get_tmul [Zero K] [Add K] [Mul K] {A B : Mat K} {i j : Nat} (hi : i < A.cols) (hj : j < B.cols) :
    (A.tmul B).get i j = ((A.rows.zip B.rows).map fun p => p.1.getD i 0 * p.2.getD j 0).sum := by
  simp [tmul, get_ofFn, hi, hj]

theorem get_mul [Zero K] [Add K] [Mul K] {A B : Mat K} {i j : Nat} (hi : i < A.nrows) (hj : j < B.cols) :
    (A.mul B).get i j = ((List.range B.nrows).map fun k => A.get i k * B.get k j).sum := by
  have hi' : i < A.rows.length := hi
  simp [mul, get, vecMul, List.getD_eq_getElem?_getD, hi', hj]

theorem get_map [Zero K] {f : K → K} {A : Mat K} (hA : A.WF) {i j : Nat} (hi : i < A.nrows) (hj : j < A.cols) :
    (A.map f).get i j = f (A.get i j) := by
  have hi' : i < A.rows.length := hi
  have hl := hA _ (List.getElem_mem hi')
  have : j < (A.rows[i]).length := by omega
  simp [map, get, List.getD_eq_getElem?_getD, hi', this]

theorem get_selCols [Zero K] {M : Mat K} {idx : List Nat} {i j : Nat} (hi : i < M.nrows) (hj : j < idx.length) :
    (M.selCols idx).get i j = M.get i idx[j] := by
  have hi' : i < M.rows.length := hi
  simp [selCols, get, List.getD_eq_getElem?_getD, hi', hj]

theorem get_selRows [Zero K] {M : Mat K} {idx : List Nat} {i j : Nat} (hi : i < idx.length) :
    (M.selRows idx).get i j = M.get idx[i] j := by
  simp [selRows, get, List.getD_eq_getElem?_getD, hi]

/-- `Mat.map` with a function that is the identity. -/
theorem map_id' {f : K → K} (h : ∀ x, f x = x) (A : Mat K) : A.map f = A := by
  cases A with
  | mk c rows =>
    simp only [map]
    congr 1
    conv_rhs => rw [← List.map_id rows]
    apply List.map_congr_left
    intro r _
    conv_rhs => rw [id, ← List.map_id r]
    apply List.map_congr_left
    intro x _
    exact h x

theorem map_of_exact {f : K → K} (h : ∀ x, f x = x) (l : List K) : l.map f = l := by
  conv_rhs => rw [← List.map_id l]
  exact List.map_congr_left fun x _ => h x

section
variable [Field K]

theorem add_assoc' (A B C : Mat K) : (A.add B).add C = A.add (B.add C) ∨
    ¬ (B.nrows = A.nrows ∧ B.cols = A.cols) := by
  by_cases h : B.nrows = A.nrows ∧ B.cols = A.cols
  · left
    obtain ⟨h1, h2⟩ := h
    apply ext_get (add_WF _ _) (add_WF _ _) (by simp) (by simp)
    intro i j hi hj
    simp only [add_nrows, add_cols] at hi hj
    rw [get_add (by simpa using hi) (by simpa using hj), get_add hi hj, get_add hi hj, get_add (by omega) (by omega)]
    ring
  · right; exact h

theorem add_assoc_of {A B C : Mat K} (h1 : B.nrows = A.nrows) (h2 : B.cols = A.cols) :
    (A.add B).add C = A.add (B.add C) := by
  rcases add_assoc' A B C with h | h
  · exact h
  · exact absurd ⟨h1, h2⟩ h

theorem add_comm_of {A B : Mat K} (h1 : B.nrows = A.nrows) (h2 : B.cols = A.cols) : A.add B = B.add A := by
  apply ext_get (add_WF _ _) (add_WF _ _) (by simp [h1]) (by simp [h2])
  intro i j hi hj
  simp only [add_nrows, add_cols] at hi hj
  rw [get_add hi hj, get_add (by omega) (by omega)]
  ring

theorem tmul_append {c d : Nat} {r1 r2 t1 t2 : List (List K)} (h : r1.length = t1.length) :
    (Mat.mk c (r1 ++ r2)).tmul ⟨d, t1 ++ t2⟩ = ((Mat.mk c r1).tmul ⟨d, t1⟩).add ((Mat.mk c r2).tmul ⟨d, t2⟩) := by
  apply ext_get (tmul_WF _ _) (add_WF _ _) (by simp) (by simp)
  intro i j hi hj
  simp only [tmul_nrows, tmul_cols] at hi hj
  rw [get_tmul hi hj, get_add (by simpa using hi) (by simpa using hj), get_tmul hi hj, get_tmul hi hj]
  rw [List.zip_append h, List.map_append, List.sum_append]

end
end Mat
end Hpelm
