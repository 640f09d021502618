import Verif.Props.C15_Solvers

/-!
# C16, C17 — setting, reading and solving correlation matrices
-/

namespace Hpelm.Props
open Hpelm Spec Finset
variable {K : Type} [Field K] [LinearOrder K]
set_option linter.unusedSectionVars false

/-! ## C16 set/get -/

/-- C16 is false for the default solver: after `set_corr` with the symmetric matrix [[2,1],[1,2]], `get_corr` returns
[[2,1],[2,2]] (the strict lower triangle is counted twice). -/
theorem C16_set_get_refuted :
    ¬ ∀ (n n' : NNet ℚ) (HH HT : Mat ℚ), SymM HH → HT.WF → n.setCorr QEnv.env HH HT = .ok n' → n'.getCorr = .ok (some (HH, HT)) := by
  intro h
  have hS : SymM (⟨2, [[2, 1], [1, 2]]⟩ : Mat ℚ) := by
    refine ⟨by intro r hr; fin_cases hr <;> rfl, rfl, ?_⟩
    intro i j
    rcases i with _ | _ | i <;> rcases j with _ | _ | j <;> simp [Mat.get]
  have := h (exModel 1 2 none none).nnet
    { (exModel 1 2 none none).nnet with corr := some (⟨2, [[2, 1], [1, 2]]⟩, ⟨1, [[1], [1]]⟩) }
    ⟨2, [[2, 1], [1, 2]]⟩ ⟨1, [[1], [1]]⟩ hS (by intro r hr; fin_cases hr <;> rfl) (by decide +kernel)
  revert this
  decide +kernel

/-- C16 holds for the basic and the GPU solver. -/
theorem C16_set_get_partial (env : Env K) (hx : env.Exact) (n n' : NNet K) (HH HT : Mat K) (hs : n.solver ≠ .python)
    (hS : SymM HH) (h : n.setCorr env HH HT = .ok n') : n'.getCorr = .ok (some (HH, HT)) := by
  unfold NNet.setCorr at h
  obtain ⟨_, _, h⟩ := bind_ok h
  obtain ⟨_, _, h⟩ := bind_ok h
  obtain ⟨_, _, h⟩ := bind_ok h
  obtain ⟨_, _, h⟩ := bind_ok h
  injection h with h
  rw [← h, Mat.map_id' (hx _), Mat.map_id' (hx _)]
  unfold NNet.getCorr
  simp only
  cases hn : n.solver with
  | basic => rfl
  | python => exact absurd hn hs
  | cuda => simp only [triu_fill_full hS]

example : (NNet.setCorr QEnv.env { (exModel 1 2 none none).nnet with solver := .cuda } ⟨2, [[2, 1], [1, 2]]⟩ ⟨1, [[1], [1]]⟩).bind
    (fun n => n.getCorr) = .ok (some (⟨2, [[2, 1], [1, 2]]⟩, ⟨1, [[1], [1]]⟩)) := by decide +kernel

/-- What the default solver does instead: for a symmetric matrix the upper triangle is returned unchanged and the strict
lower triangle doubled; so the round trip succeeds exactly for diagonal matrices. -/
theorem C16_set_get_python [IsStrictOrderedRing K] (env : Env K) (hx : env.Exact) (n n' : NNet K) (HH HT : Mat K) (hs : n.solver = .python)
    (hS : SymM HH) (h : n.setCorr env HH HT = .ok n') :
    ∃ HH', n'.getCorr = .ok (some (HH', HT)) ∧ HH'.nrows = HH.nrows ∧ HH'.cols = HH.cols ∧
      (∀ i j, i < HH.nrows → j < HH.nrows → HH'.get i j = if i ≤ j then HH.get i j else 2 * HH.get i j) ∧
      (HH' = HH ↔ ∀ i j, i < HH.nrows → j < HH.nrows → i ≠ j → HH.get i j = 0) := by
  unfold NNet.setCorr at h
  obtain ⟨_, _, h⟩ := bind_ok h
  obtain ⟨_, _, h⟩ := bind_ok h
  obtain ⟨_, _, h⟩ := bind_ok h
  obtain ⟨_, _, h⟩ := bind_ok h
  injection h with h
  rw [← h, Mat.map_id' (hx _), Mat.map_id' (hx _)]
  have hget : ∀ i j, i < HH.nrows → j < HH.nrows → (HH.add (triu1T HH)).get i j = if i ≤ j then HH.get i j else 2 * HH.get i j := by
    intro i j hi hj
    have hj' : j < HH.cols := by rw [← hS.square]; exact hj
    rw [Mat.get_add hi hj']
    unfold triu1T
    rw [Mat.get_ofFn_lt hi hj']
    by_cases hij : i ≤ j
    · rw [if_neg (by omega), if_pos hij, add_zero]
    · rw [if_pos (by omega), if_neg hij, hS.symm j i]; ring
  refine ⟨HH.add (triu1T HH), ?_, by simp, by simp, hget, ?_, ?_⟩
  · unfold NNet.getCorr
    simp only [hs]
  · intro he i j hi hj hij
    have key : ∀ a b, a < HH.nrows → b < HH.nrows → b < a → HH.get a b = 0 := by
      intro a b ha hb hab
      have := hget a b ha hb
      rw [he, if_neg (by omega)] at this
      linarith
    rcases Nat.lt_or_gt_of_ne hij with h1 | h1
    · rw [hS.symm]; exact key j i hj hi h1
    · exact key i j hi hj h1
  · intro hz
    apply Mat.ext_get (Mat.add_WF _ _) hS.wf (by simp) (by simp)
    intro i j hi hj
    simp only [Mat.add_nrows, Mat.add_cols] at hi hj
    rw [← hS.square] at hj
    rw [hget i j hi hj]
    split
    · rfl
    · rw [hz i j hi hj (by omega)]; ring

/-- For the default solver an upper triangular matrix is read back as the full symmetric matrix. -/
theorem C16_set_get_triangular (env : Env K) (hx : env.Exact) (n n' : NNet K) (HH HT : Mat K) (hs : n.solver = .python)
    (hS : SymM HH) (h : n.setCorr env (Mat.ofFn HH.nrows HH.cols fun i j => if i ≤ j then HH.get i j else 0) HT = .ok n') :
    n'.getCorr = .ok (some (HH, HT)) := by
  unfold NNet.setCorr at h
  obtain ⟨_, _, h⟩ := bind_ok h
  obtain ⟨_, _, h⟩ := bind_ok h
  obtain ⟨_, _, h⟩ := bind_ok h
  obtain ⟨_, _, h⟩ := bind_ok h
  injection h with h
  rw [← h, Mat.map_id' (hx _), Mat.map_id' (hx _)]
  unfold NNet.getCorr
  simp only [hs]
  exact congrArg _ (congrArg _ (congrArg (fun a => (a, HT)) (triu_fill hS)))

/-! ## C17 full or triangular -/

/-- C17 is false for the default solver, whatever correct linear algebra library it uses.  For the covariance matrix
S = [[1,1,0],[1,2,1],[0,1,1]] of rank 2 and the right-hand side t = (1,1,0) = S·(1,0,0), `solve_corr` given the full symmetric
matrix returns a vector that is not even a least-squares solution of S x = t. -/
theorem C17_full_refuted (env : Env ℚ) (hl : Lawful env) :
    ∃ S t : Mat ℚ, SymM S ∧ S.mul ⟨1, [[1], [0], [0]]⟩ = t ∧
      (S.tmul S).mul ((exModel 1 2 none none).nnet.solveCorr env S t) ≠ S.tmul t := by
  refine ⟨⟨3, [[1, 1, 0], [1, 2, 1], [0, 1, 1]]⟩, ⟨1, [[1], [1], [0]]⟩, ?_, by decide +kernel, ?_⟩
  · refine ⟨by intro r hr; fin_cases hr <;> rfl, rfl, ?_⟩
    intro i j
    rcases i with _ | _ | _ | i <;> rcases j with _ | _ | _ | j <;> simp [Mat.get]
  · have hpd : ¬ PosDef (symU (⟨3, [[1, 1, 0], [1, 2, 1], [0, 1, 1]]⟩ : Mat ℚ)) := by
      intro h
      have h2 := h.2 (fun i => if i = 1 then -1 else 1) ⟨0, by decide +kernel, by decide +kernel⟩
      revert h2
      decide +kernel
    have w1 : (⟨3, [[1, 1, 0], [1, 2, 1], [0, 1, 1]]⟩ : Mat ℚ).WF := by intro r hr; fin_cases hr <;> rfl
    have w2 : (⟨1, [[1], [1], [0]]⟩ : Mat ℚ).WF := by intro r hr; fin_cases hr <;> rfl
    have hinfo := hl.posv_info _ _ w1 w2 rfl rfl
    have hpos : (env.posv (⟨3, [[1, 1, 0], [1, 2, 1], [0, 1, 1]]⟩ : Mat ℚ) ⟨1, [[1], [1], [0]]⟩).2 > 0 :=
      Nat.pos_of_ne_zero fun h0 => hpd (hinfo.1 h0)
    have hM : (⟨3, [[1, 1, 0], [1, 2, 1], [0, 1, 1]]⟩ : Mat ℚ).add (triu1T ⟨3, [[1, 1, 0], [1, 2, 1], [0, 1, 1]]⟩) =
        ⟨3, [[1, 1, 0], [2, 2, 1], [0, 2, 1]]⟩ := by decide +kernel
    have hval : (exModel 1 2 none none).nnet.solveCorr env ⟨3, [[1, 1, 0], [1, 2, 1], [0, 1, 1]]⟩ ⟨1, [[1], [1], [0]]⟩ =
        env.lstsq ⟨3, [[1, 1, 0], [2, 2, 1], [0, 2, 1]]⟩ ⟨1, [[1], [1], [0]]⟩ := by
      unfold NNet.solveCorr
      simp only [exModel, if_pos hpos, hM]
    rw [hval]
    have w3 : (⟨3, [[1, 1, 0], [2, 2, 1], [0, 2, 1]]⟩ : Mat ℚ).WF := by intro r hr; fin_cases hr <;> rfl
    have hn := hl.lstsq_sol _ _ w3 w2 rfl rfl
    obtain ⟨s1, s2, s3⟩ := hl.lstsq _ _ w3 w2 rfl rfl
    generalize env.lstsq ⟨3, [[1, 1, 0], [2, 2, 1], [0, 2, 1]]⟩ ⟨1, [[1], [1], [0]]⟩ = x at hn s1 s2 s3 ⊢
    intro hc
    -- entries of x
    have hMM : (⟨3, [[1, 1, 0], [2, 2, 1], [0, 2, 1]]⟩ : Mat ℚ).tmul ⟨3, [[1, 1, 0], [2, 2, 1], [0, 2, 1]]⟩ =
        ⟨3, [[5, 5, 2], [5, 9, 4], [2, 4, 2]]⟩ := by decide +kernel
    have hMt : (⟨3, [[1, 1, 0], [2, 2, 1], [0, 2, 1]]⟩ : Mat ℚ).tmul ⟨1, [[1], [1], [0]]⟩ = ⟨1, [[3], [3], [1]]⟩ := by decide +kernel
    have hSS : (⟨3, [[1, 1, 0], [1, 2, 1], [0, 1, 1]]⟩ : Mat ℚ).tmul ⟨3, [[1, 1, 0], [1, 2, 1], [0, 1, 1]]⟩ =
        ⟨3, [[2, 3, 1], [3, 6, 3], [1, 3, 2]]⟩ := by decide +kernel
    have hSt : (⟨3, [[1, 1, 0], [1, 2, 1], [0, 1, 1]]⟩ : Mat ℚ).tmul ⟨1, [[1], [1], [0]]⟩ = ⟨1, [[2], [3], [1]]⟩ := by decide +kernel
    rw [hMM, hMt] at hn
    rw [hSS, hSt] at hc
    have ent : ∀ (A b : Mat ℚ), A.mul x = b → A.nrows = 3 → ∀ i, i < 3 →
        A.get i 0 * x.get 0 0 + A.get i 1 * x.get 1 0 + A.get i 2 * x.get 2 0 = b.get i 0 := by
      intro A b h hA i hi
      have := get_mul_sum (A := A) (B := x) (i := i) (j := 0) (by omega) (by rw [s3]; exact Nat.one_pos)
      have s2' : x.nrows = 3 := s2
      rw [h, s2', Finset.sum_range_succ, Finset.sum_range_succ, Finset.sum_range_one] at this
      exact this.symm
    have e0 := ent _ _ hn rfl 0 (by omega)
    have e1 := ent _ _ hn rfl 1 (by omega)
    have e2 := ent _ _ hn rfl 2 (by omega)
    have f0 := ent _ _ hc rfl 0 (by omega)
    have f1 := ent _ _ hc rfl 1 (by omega)
    have f2 := ent _ _ hc rfl 2 (by omega)
    simp [Mat.get] at e0 e1 e2 f0 f1 f2
    linarith

/-- C17, the part that holds.  `solve_corr` returns a least-squares solution of the symmetric system (solution of
Sᵀ S x = Sᵀ t) for every solver when it is given the matrix as that solver stores it (full for the basic solver, upper triangle
for the default one), also when S is rank deficient; and when it is given the full matrix, for the basic and GPU solvers
always, for the default solver when S is positive definite. -/
theorem C17_full_partial [IsStrictOrderedRing K] (env : Env K) (hl : Lawful env) (hx : env.Exact) (n : NNet K) (S A t : Mat K)
    (hS : SymM S) (ht : t.WF) (htn : t.nrows = S.nrows)
    (hA : A = n.store S ∨ (A = S ∧ (n.solver ≠ .python ∨ PosDef S))) :
    (S.tmul S).mul (n.solveCorr env A t) = S.tmul t := by
  have hsymT : ∀ x : Mat K, S.mul x = t → (S.tmul S).mul x = S.tmul t := by
    intro x hx
    · apply Mat.ext_get (Mat.mul_WF _ _) (Mat.tmul_WF _ _) (by simp) (by rw [← hx]; simp)
      intro i j hi hj
      simp only [Mat.mul_nrows, Mat.tmul_nrows, Mat.mul_cols] at hi hj
      have hjt : j < t.cols := by rw [← hx]; simpa using hj
      rw [get_mul_sum (by simpa using hi) hj, get_tmul_sum htn.symm hi hjt]
      have e1 : ∀ k ∈ range x.nrows, (S.tmul S).get i k * x.get k j = ∑ s ∈ range S.nrows, S.get s i * (S.get s k * x.get k j) := by
        intro k hk
        by_cases hks : k < S.cols
        · rw [get_tmul_sum rfl hi hks, Finset.sum_mul]
          apply Finset.sum_congr rfl; intro s _; ring
        · have z1 : (S.tmul S).get i k = 0 := Mat.get_ge_cols _ (Mat.tmul_WF _ _) (by simpa using hks)
          rw [z1, zero_mul]
          symm
          apply Finset.sum_eq_zero
          intro s _
          have : S.get s k = 0 := Mat.get_ge_cols _ hS.wf (by omega)
          rw [this]; ring
      rw [Finset.sum_congr rfl e1, Finset.sum_comm]
      apply Finset.sum_congr rfl
      intro s hs
      rw [← hx, get_mul_sum (Finset.mem_range.1 hs) hj, Finset.mul_sum]
  by_cases hpd : PosDef S
  · have hA' : A = S ∨ A = n.store S := by
      rcases hA with h | h
      · exact Or.inr h
      · exact Or.inl h.1
    exact hsymT _ (solveCorr_posDef hl hx n hS hpd hA' ht htn).1
  · -- not positive definite
    have hAwf : A.WF := by
      rcases hA with rfl | ⟨rfl, _⟩
      · unfold NNet.store; split
        · exact triu_WF _
        · exact hS.wf
      · exact hS.wf
    have hAn : A.nrows = S.nrows := by
      rcases hA with rfl | ⟨rfl, _⟩ <;> simp [store_nrows]
    have hAc : A.cols = S.cols := by
      rcases hA with rfl | ⟨rfl, _⟩ <;> simp [store_cols]
    have hAU : symU A = S := by
      rcases hA with rfl | ⟨rfl, _⟩
      · exact symU_store n hS
      · exact symU_sym hS
    have hsq : A.nrows = A.cols := by rw [hAn, hAc, hS.square]
    have hinfo := hl.posv_info A t hAwf ht hsq (by rw [htn, hAn])
    rw [hAU] at hinfo
    have hpos : (env.posv A t).2 > 0 := Nat.pos_of_ne_zero fun h => hpd (hinfo.1 h)
    unfold NNet.solveCorr
    split
    · rename_i hb
      have hAS : A = S := by
        rcases hA with h | ⟨h, _⟩
        · rw [h]; unfold NNet.store NNet.tri; rw [hb]; rfl
        · exact h
      subst hAS
      obtain ⟨p1, p2, p3⟩ := hl.pinv A hS.wf hsq
      have e1 : ((A.tmul A).mul (env.pinv A)).mul t = (A.tmul (Mat.diag A.nrows 1)).mul t := by rw [hl.pinv_sol A hS.wf hsq]
      apply toM_inj (r := A.cols) (c := t.cols) (Mat.mul_WF _ _) (Mat.tmul_WF _ _) (by simp) (by simp) (by simp) (by simp)
      have e2 := congrArg (Mat.toM A.cols t.cols) e1
      rw [toM_mul (m := A.nrows) (by simp) htn rfl, toM_mul (m := A.nrows) (by simp) htn rfl,
        toM_mul (m := A.cols) (by simp) p2 p3,
        toM_tmul (n := A.nrows) rfl rfl rfl rfl, toM_tmul (n := A.nrows) rfl (by simp) rfl (by simp), toM_diag, one_smul, Matrix.mul_one] at e2
      rw [toM_mul (m := A.cols) (by simp) (by simp [p2]) (by simp), toM_mul (m := A.nrows) (by rw [p2]) htn rfl,
        toM_tmul (n := A.nrows) rfl rfl rfl rfl, toM_tmul (n := A.nrows) rfl htn rfl rfl, ← Matrix.mul_assoc]
      exact e2
    · rename_i hb
      have hAt : A = triu S := by
        rcases hA with h | ⟨_, h⟩
        · rw [h]; unfold NNet.store NNet.tri; rw [hb]; rfl
        · rcases h with h | h
          · exact absurd hb h
          · exact absurd h hpd
      simp only [if_pos hpos]
      rw [hAt, triu_fill hS]
      exact hl.lstsq_sol S t hS.wf ht hS.square htn
    · rename_i hb
      simp only [if_pos hpos]
      rw [Mat.map_id' (hx _)]
      have : (triu A).add (triu1T A) = S := by
        rcases hA with h | ⟨h, _⟩
        · rw [h]; unfold NNet.store
          split
          · rw [triu_triu, triu_fill hS]
          · exact triu_fill_full hS
        · rw [h]; exact triu_fill_full hS
      rw [this]
      exact hl.lstsq_sol S t hS.wf ht hS.square htn

/-- C17, positive definite case (always met with positive regularisation): the full matrix and the stored form give the same,
exact, solution. -/
theorem C17_posDef [IsStrictOrderedRing K] (env : Env K) (hl : Lawful env) (hx : env.Exact) (n : NNet K) (S t : Mat K) (hS : SymM S)
    (hpd : PosDef S) (ht : t.WF) (htn : t.nrows = S.nrows) :
    n.solveCorr env S t = n.solveCorr env (n.store S) t ∧ S.mul (n.solveCorr env S t) = t := by
  obtain ⟨q1, q2, q3, q4⟩ := solveCorr_posDef hl hx n hS hpd (Or.inl rfl) ht htn
  obtain ⟨u1, u2, u3, u4⟩ := solveCorr_posDef hl hx n hS hpd (Or.inr rfl) ht htn
  exact ⟨posDef_cancel hpd hS.square q2 u2 q3 u3 (by rw [q4, u4]) (q1.trans u1.symm), q1⟩

/-- A rank deficient case through the fallback of the default solver: the stored (triangular) form is solved correctly.  (The
environment `QEnv` reports failure of the factorisation and solves by elimination.) -/
example : (QEnv.env.posv ⟨2, [[0, 1], [0, 0]]⟩ ⟨1, [[2], [3]]⟩).2 = 1 ∧
    (⟨2, [[0, 1], [1, 0]]⟩ : Mat ℚ).mul ((exModel 1 2 none none).nnet.solveCorr QEnv.env ⟨2, [[0, 1], [0, 0]]⟩ ⟨1, [[2], [3]]⟩) = ⟨1, [[2], [3]]⟩ := by
  decide +kernel

/-- Lawful environments exist. -/
example : ∃ env : Env ℚ, Lawful env ∧ env.Exact := ⟨lawEnv QEnv.env, lawEnv_lawful _, lawEnv_exact _⟩

end Hpelm.Props
