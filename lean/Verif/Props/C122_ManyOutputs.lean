import Verif.Spec.NormPath
import Verif.Props.C85_Path
import Verif.Props.C05_Ranges
import Verif.Lemmas.RowOrder
import Mathlib.Analysis.InnerProductSpace.PiL2
import Mathlib.Topology.Order.IntermediateValue

/-!
# C122 — the ranking for ten or more outputs
-/

set_option linter.unusedSectionVars false

namespace Hpelm.Props
open Hpelm Spec Finset

section first
variable {K : Type} [Field K] [LinearOrder K]

/-- The maximisation loop. -/
theorem mrsr2First_max {c : Nat → K} {js : List Nat} {m : K} {jm : Option Nat} {j : Nat} (h : mrsr2First c js m jm = some j)
    (hm : ∀ a, jm = some a → c a = m) (hn : jm = none → ∀ i, m < c i) : (∀ i ∈ js, c i ≤ c j) ∧ (jm ≠ none → m ≤ c j) := by
  induction js generalizing m jm with
  | nil =>
    have h : jm = some j := h
    exact ⟨by simp, fun _ => (hm j h).ge⟩
  | cons a js ih =>
    unfold mrsr2First at h
    split at h
    · rename_i hlt
      obtain ⟨h1, h2⟩ := ih h (by intro b hb; injection hb with hb; rw [hb]) (by simp)
      have h2 := h2 (by simp)
      exact ⟨by
        intro i hi
        rcases List.mem_cons.1 hi with rfl | hi
        · exact h2
        · exact h1 i hi, fun _ => hlt.le.trans h2⟩
    · rename_i hlt
      have hlt := not_lt.1 hlt
      obtain ⟨h1, h2⟩ := ih h hm hn
      refine ⟨?_, h2⟩
      intro i hi
      rcases List.mem_cons.1 hi with rfl | hi
      · cases jm with
        | some b => exact hlt.trans (h2 (by simp))
        | none => exact absurd (hn rfl i) (not_lt.2 hlt)
      · exact h1 i hi

/-- Later steps only append to the ranking. -/
theorem mrsr2Loop_prefix {env : Env K} {X T : Mat K} {k : Nat} {st st' : Mrsr2St K} (h : mrsr2Loop env X T k st = .ok st') :
    ∃ l, st'.rank = st.rank ++ l := by
  induction k generalizing st with
  | zero =>
    unfold mrsr2Loop at h
    injection h with h
    exact ⟨[], by rw [h, List.append_nil]⟩
  | succ k ih =>
    unfold mrsr2Loop at h
    obtain ⟨s1, h1, h⟩ := bind_ok h
    obtain ⟨l, hl⟩ := ih h
    rcases mrsr2Step_perm h1 with ⟨j, e1, _, _⟩ | ⟨e1, _, _⟩
    · exact ⟨j :: l, by rw [hl, e1]; simp⟩
    · exact ⟨l, by rw [hl, e1]⟩

end first

/-- The square of the norm computed by `np.linalg.norm`. -/
theorem norm2_corr2 {env : Env ℝ} (hr : RealFns env) {X R : Mat ℝ} (hN : X.nrows = R.nrows) (j : Nat) :
    norm2 env (corr2 X R j) = Real.sqrt (∑ t ∈ range R.cols, (∑ s ∈ range R.nrows, R.get s t * X.get s j) ^ 2) := by
  unfold norm2 corr2
  rw [hr.sqrt, List.map_map, sum_range_list]
  congr 1
  apply Finset.sum_congr rfl
  intro t _
  simp only [Function.comp]
  rw [dot_col hN, sq]

theorem norm2_nonneg {env : Env ℝ} (hr : RealFns env) (v : List ℝ) : 0 ≤ norm2 env v := by
  unfold norm2; rw [hr.sqrt]; exact Real.sqrt_nonneg _

/-- The state of `mrsr2` when the first column has been picked. -/
def pick1 (X T : Mat ℝ) (j : Nat) : Mrsr2St ℝ :=
  ⟨[j], (List.range X.cols).erase j, Mat.zeros T.nrows T.cols, Mat.zeros T.nrows T.cols, j, none⟩

/-- The first step of `mrsr2`. -/
theorem mrsr2_first_step {env : Env ℝ} (hr : RealFns env) {X T : Mat ℝ} (hN : X.nrows = T.nrows) {kmax : Nat} {r : List Nat} (hk : 0 < kmax) (hX : 0 < X.nrows)
    (h : mrsr2 env X T kmax = .ok r) :
    ∃ (j : Nat) (st : Mrsr2St ℝ), j < X.cols ∧ (∀ i < X.cols, normCorr X T (fun _ _ => 0) i ≤ normCorr X T (fun _ _ => 0) j) ∧
      mrsr2Loop env X T (min kmax X.nrows - 1) (mrsr2Upd env X T (pick1 X T j) 1) = .ok st ∧ st.rank = r := by
  unfold mrsr2 at h
  obtain ⟨st, h1, h⟩ := bind_ok h
  injection h with h
  obtain ⟨k, hk'⟩ : ∃ k, min kmax X.nrows = k + 1 := ⟨min kmax X.nrows - 1, by omega⟩
  rw [hk'] at h1 ⊢
  unfold mrsr2Loop at h1
  obtain ⟨s1, h2, h1⟩ := bind_ok h1
  rw [mrsr2Step_eq] at h2
  simp only [List.isEmpty_nil, if_true] at h2
  cases hf : mrsr2First (fun j => norm2 env (corr2 X T j)) (List.range X.cols) (-1) none with
  | none => rw [hf] at h2; cases h2
  | some j =>
    rw [hf] at h2
    simp only at h2
    injection h2 with h2
    have hmax := (mrsr2First_max hf (by simp) (fun _ i => by have := norm2_nonneg hr (corr2 X T i); linarith)).1
    have hj : j < X.cols := by
      rcases mrsr2First_mem hf with h | h
      · exact List.mem_range.1 h
      · cases h
    have hc : ∀ i, norm2 env (corr2 X T i) = normCorr X T (fun _ _ => 0) i := by
      intro i
      rw [norm2_corr2 hr hN]
      unfold normCorr
      simp only [sub_zero]
    refine ⟨j, st, hj, ?_, ?_, h⟩
    · intro i hi
      rw [← hc, ← hc]
      exact hmax i (List.mem_range.2 hi)
    · rw [← h1, ← h2]
      rfl

/-- C122, first pick.  With ten or more outputs, the first neuron of the ranking is an existing one whose outputs have the largest norm of correlations with
the targets. -/
theorem C122_first (env : Env ℝ) (hr : RealFns env) (X T : Mat ℝ) (hN : X.nrows = T.nrows) (kmax : Nat) (hk : 0 < kmax) (hX : 0 < X.nrows) (r : List Nat)
    (h : mrsr2 env X T kmax = .ok r) :
    ∃ j l, r = j :: l ∧ j < X.cols ∧ ∀ i < X.cols, normCorr X T (fun _ _ => 0) i ≤ normCorr X T (fun _ _ => 0) j := by
  obtain ⟨j, st, hj, hmax, hl, hst⟩ := mrsr2_first_step hr hN hk hX h
  obtain ⟨l, hl⟩ := mrsr2Loop_prefix hl
  refine ⟨j, l, ?_, hj, hmax⟩
  rw [← hst, hl]
  rfl

/-- C122, first pick, as used by training with 'OP': the first neuron kept is one whose outputs have the largest norm of correlations with the targets. -/
theorem C122_training_first (env : Env ℝ) (hr : RealFns env) (sh : List Nat) (e : ELM ℝ) (L : Nat) (H T : Mat ℝ) (hN : H.nrows = T.nrows) (hH : 0 < H.nrows)
    (hop : e.rankingOP = true) (hT : 10 ≤ T.cols) (r : List Nat) (k : Nat) (hk : 0 < k) (h : e.ranking env sh L H T = .ok (r, k)) :
    ∃ j l, r = j :: l ∧ j < H.cols ∧ ∀ i < H.cols, normCorr H T (fun _ _ => 0) i ≤ normCorr H T (fun _ _ => 0) j := by
  unfold ELM.ranking at h
  rw [if_pos hop] at h
  simp only [if_neg (not_lt.2 hT)] at h
  obtain ⟨r', h1, h⟩ := bind_ok h
  injection h with h
  injection h with h2 h3
  subst h2
  exact C122_first env hr H T hN _ (by rw [h3]; exact hk) hH r' h1

/-! ### The step -/

/-- How far a column is behind after a move of length `y` (mrsr2.py:83). -/
noncomputable def gap (env : Env ℝ) (cmax : ℝ) (a b : List ℝ) (y : ℝ) : ℝ := (1 - y) * cmax - norm2 env (List.zipWith (fun a b => a - y * b) a b)

theorem zipNorm {env : Env ℝ} (hr : RealFns env) (a b : List ℝ) :
    ∃ (n : Nat) (u v : EuclideanSpace ℝ (Fin n)), ∀ y, norm2 env (List.zipWith (fun a b => a - y * b) a b) = ‖u - y • v‖ := by
  refine ⟨(a.zip b).length, WithLp.toLp 2 fun i => (a.zip b)[i].1, WithLp.toLp 2 fun i => (a.zip b)[i].2, ?_⟩
  intro y
  unfold norm2
  rw [hr.sqrt, EuclideanSpace.norm_eq]
  congr 1
  rw [← List.map_uncurry_zip_eq_zipWith, List.map_map, ← Fin.sum_univ_fun_getElem]
  apply Finset.sum_congr rfl
  intro i _
  simp [Function.uncurry, sq]

theorem gap_concave {env : Env ℝ} (hr : RealFns env) (cmax : ℝ) (a b : List ℝ) {x z t : ℝ} (h0 : 0 ≤ t) (h1 : t ≤ 1) :
    t * gap env cmax a b x + (1 - t) * gap env cmax a b z ≤ gap env cmax a b (t * x + (1 - t) * z) := by
  obtain ⟨n, u, v, h⟩ := zipNorm hr a b
  unfold gap
  rw [h, h, h]
  have e : u - (t * x + (1 - t) * z) • v = t • (u - x • v) + (1 - t) • (u - z • v) := by module
  have := norm_add_le (t • (u - x • v)) ((1 - t) • (u - z • v))
  rw [norm_smul, norm_smul, Real.norm_of_nonneg h0, Real.norm_of_nonneg (by linarith : (0:ℝ) ≤ 1 - t)] at this
  rw [e]
  nlinarith

theorem gap_continuous {env : Env ℝ} (hr : RealFns env) (cmax : ℝ) (a b : List ℝ) : Continuous (gap env cmax a b) := by
  obtain ⟨n, u, v, h⟩ := zipNorm hr a b
  have : gap env cmax a b = fun y => (1 - y) * cmax - ‖u - y • v‖ := by
    funext y; unfold gap; rw [h]
  rw [this]
  fun_prop

/-- A column that is behind at the start and not ahead at `z` is not ahead in between. -/
theorem gap_between {env : Env ℝ} (hr : RealFns env) {cmax : ℝ} {a b : List ℝ} {e y z : ℝ} (he : 0 < gap env cmax a b e) (hz : 0 ≤ gap env cmax a b z)
    (h1 : e ≤ y) (h2 : y ≤ z) : 0 ≤ gap env cmax a b y ∧ (y < z → 0 < gap env cmax a b y) := by
  rcases h2.lt_or_eq with h | rfl
  · have hd : 0 < z - e := by linarith
    have key := gap_concave hr cmax a b (x := e) (z := z) (t := (z - y) / (z - e)) (div_nonneg (by linarith) hd.le) (by rw [div_le_one hd]; linarith)
    have e1 : (z - y) / (z - e) * e + (1 - (z - y) / (z - e)) * z = y := by field_simp; ring
    rw [e1] at key
    have t0 : 0 < (z - y) / (z - e) := div_pos (by linarith) hd
    have t1 : (z - y) / (z - e) ≤ 1 := by rw [div_le_one hd]; linarith
    have : 0 < gap env cmax a b y := by
      have := mul_pos t0 he
      have := mul_nonneg (sub_nonneg.2 t1) hz
      linarith
    exact ⟨this.le, fun _ => this⟩
  · exact ⟨hz, fun h => absurd h (lt_irrefl _)⟩

/-- The search for the step length, if no column catches up right at the start: it finds the first column to catch up. -/
theorem search_spec {env : Env ℝ} (hr : RealFns env) (hb : FindsRoots env.brentq) (cmax : ℝ) (p1 p2 : Nat → List ℝ) (js : List Nat) :
    ∀ (y : ℝ) (jm : Option Nat), 1 / 10 ^ 15 ≤ y → (∀ j ∈ js, 0 < gap env cmax (p1 j) (p2 j) (1 / 10 ^ 15)) →
      1 / 10 ^ 15 ≤ (mrsr2Search env cmax p1 p2 js y jm).1 ∧ (mrsr2Search env cmax p1 p2 js y jm).1 ≤ y ∧
      (∀ j ∈ js, 0 ≤ gap env cmax (p1 j) (p2 j) (mrsr2Search env cmax p1 p2 js y jm).1) ∧
      (((mrsr2Search env cmax p1 p2 js y jm).1 = y ∧ (mrsr2Search env cmax p1 p2 js y jm).2 = jm) ∨
       ((mrsr2Search env cmax p1 p2 js y jm).1 < y ∧ ∃ j ∈ js, (mrsr2Search env cmax p1 p2 js y jm).2 = some j ∧
          gap env cmax (p1 j) (p2 j) (mrsr2Search env cmax p1 p2 js y jm).1 = 0)) := by
  induction js with
  | nil =>
    intro y jm hy _
    exact ⟨hy, le_rfl, by simp, Or.inl ⟨rfl, rfl⟩⟩
  | cons j js ih =>
    intro y jm hy he
    have hej := he j (by simp)
    have he' : ∀ i ∈ js, 0 < gap env cmax (p1 i) (p2 i) (1 / 10 ^ 15) := fun i hi => he i (List.mem_cons_of_mem _ hi)
    by_cases hlt : gap env cmax (p1 j) (p2 j) y < 0
    · obtain ⟨z, ⟨hz1, hz2⟩, hz⟩ := intermediate_value_Icc' hy (gap_continuous hr cmax (p1 j) (p2 j)).continuousOn ⟨hlt.le, hej.le⟩
      have hzy : z < y := lt_of_le_of_ne hz2 (by rintro rfl; rw [hz] at hlt; exact lt_irrefl _ hlt)
      have hroot : env.brentq (gap env cmax (p1 j) (p2 j)) (1 / 10 ^ 15) y = some z := by
        refine hb.2 _ _ _ _ hz1 hz2 hz ?_ ?_
        · intro x h1 h2
          exact (gap_between hr hej hz.ge h1 h2.le).2 h2
        · intro x h1 h2
          by_contra hx
          have := (gap_between hr hej (not_lt.1 hx) hz1 h1.le).2 h1
          rw [hz] at this
          exact lt_irrefl _ this
      have hs : mrsr2Search env cmax p1 p2 (j :: js) y jm = mrsr2Search env cmax p1 p2 js z (some j) := by
        rw [mrsr2Search]
        simp only
        rw [if_pos (show (1 - y) * cmax - norm2 env (List.zipWith (fun a b => a - y * b) (p1 j) (p2 j)) < 0 from hlt)]
        have hroot' : env.brentq (fun y => (1 - y) * cmax - norm2 env (List.zipWith (fun a b => a - y * b) (p1 j) (p2 j))) (1 / 10 ^ 15) y = some z := hroot
        rw [hroot']
      obtain ⟨i1, i2, i3, i4⟩ := ih z (some j) hz1 he'
      rw [hs]
      refine ⟨i1, i2.trans hz2, ?_, Or.inr ⟨lt_of_le_of_lt i2 hzy, ?_⟩⟩
      · intro i hi
        rcases List.mem_cons.1 hi with rfl | hi
        · exact (gap_between hr hej hz.ge i1 i2).1
        · exact i3 i hi
      · rcases i4 with ⟨a1, a2⟩ | ⟨_, i, hi, a2, a3⟩
        · exact ⟨j, by simp, a2, by rw [a1, hz]⟩
        · exact ⟨i, List.mem_cons_of_mem _ hi, a2, a3⟩
    · have hs : mrsr2Search env cmax p1 p2 (j :: js) y jm = mrsr2Search env cmax p1 p2 js y jm := by
        rw [mrsr2Search]
        simp only
        rw [if_neg (show ¬ (1 - y) * cmax - norm2 env (List.zipWith (fun a b => a - y * b) (p1 j) (p2 j)) < 0 from hlt)]
      obtain ⟨i1, i2, i3, i4⟩ := ih y jm hy he'
      rw [hs]
      refine ⟨i1, i2, ?_, ?_⟩
      · intro i hi
        rcases List.mem_cons.1 hi with rfl | hi
        · exact (gap_between hr hej (not_lt.1 hlt) i1 i2).1
        · exact i3 i hi
      · rcases i4 with h | ⟨a1, i, hi, a2, a3⟩
        · exact Or.inl h
        · exact Or.inr ⟨a1, i, List.mem_cons_of_mem _ hi, a2, a3⟩

/-- The least-squares fit of one column. -/
theorem fit_one {env : Env ℝ} (hlu : SolvesUnique env.luSolve) {X T : Mat ℝ} (hN : X.nrows = T.nrows) (j : Nat) :
    let A := X.selCols [j]
    let F := A.mul (env.luSolve (A.tmul A) (A.tmul T))
    LeastSquares X T [j] F ∧ F.nrows = T.nrows ∧ F.cols = T.cols := by
  intro A F
  have hAn : A.nrows = X.nrows := by simp [A, Mat.selCols, Mat.nrows]
  have hAc : A.cols = 1 := rfl
  have hAg : ∀ s < T.nrows, A.get s 0 = X.get s j := by
    intro s hs
    exact Mat.get_selCols (by omega) (by simp)
  obtain ⟨sh1, sh2⟩ := hlu.shape (A.tmul A) (A.tmul T)
  have hbn : (A.tmul T).nrows = 1 := by simp [Mat.tmul, hAc]
  have hbc : (A.tmul T).cols = T.cols := rfl
  have hFn : F.nrows = T.nrows := by
    show (A.mul _).nrows = _
    rw [Mat.mul_nrows, hAn, hN]
  have hFc : F.cols = T.cols := by
    show (A.mul _).cols = _
    rw [Mat.mul_cols, sh2]; rfl
  have hF : ∀ s < T.nrows, ∀ t < T.cols, F.get s t = X.get s j * (env.luSolve (A.tmul A) (A.tmul T)).get 0 t := by
    intro s hs t ht
    show (A.mul _).get s t = _
    rw [get_mul_sum (by omega) (by rw [sh2]; exact ht), sh1, hbn, Finset.sum_range_one, hAg s hs]
  refine ⟨⟨⟨fun _ t => (env.luSolve (A.tmul A) (A.tmul T)).get 0 t, ?_⟩, ?_⟩, hFn, hFc⟩
  · intro s hs t ht
    rw [hF s hs t ht]
    simp
  · intro i hi t ht
    obtain rfl : i = j := by simpa using hi
    obtain ⟨q, hq⟩ : ∃ q, q = ∑ s ∈ range T.nrows, X.get s i * X.get s i := ⟨_, rfl⟩
    by_cases hq0 : q = 0
    · have hz : ∀ s ∈ range T.nrows, X.get s i = 0 := by
        intro s hs
        have := (Finset.sum_eq_zero_iff_of_nonneg (fun s _ => mul_self_nonneg (X.get s i))).1 (hq ▸ hq0) s hs
        exact mul_self_eq_zero.1 this
      apply Finset.sum_eq_zero
      intro s hs
      rw [hz s hs, mul_zero]
    · have hq1 : (A.tmul A).get 0 0 = q := by
        rw [get_tmul_sum rfl (by omega) (by omega), hAn, hN, hq]
        apply Finset.sum_congr rfl
        intro s hs
        rw [hAg s (Finset.mem_range.1 hs)]
      have hb1 : ∀ t < T.cols, (A.tmul T).get 0 t = ∑ s ∈ range T.nrows, X.get s i * T.get s t := by
        intro t ht
        rw [get_tmul_sum (hAn.trans hN) (by omega) ht, hAn, hN]
        apply Finset.sum_congr rfl
        intro s hs
        rw [hAg s (Finset.mem_range.1 hs)]
      have hmul : ∀ y : Mat ℝ, y.nrows = 1 → y.cols = T.cols → ∀ t < T.cols, ((A.tmul A).mul y).get 0 t = q * y.get 0 t := by
        intro y hy hyc t ht
        rw [get_mul_sum (by simp [Mat.tmul, hAc]) (by omega), hy, Finset.sum_range_one, hq1]
      have hsol : env.luSolve (A.tmul A) (A.tmul T) = Mat.ofFn 1 T.cols fun _ t => (A.tmul T).get 0 t / q := by
        refine hlu.unique _ _ _ (Mat.tmul_WF _ _) (by simp [Mat.tmul]) (Mat.tmul_WF _ _) (by simp [Mat.tmul]) (Mat.ofFn_WF _ _ _) (by simp [Mat.tmul, hAc]) rfl ?_ ?_
        · refine Mat.ext_get (Mat.mul_WF _ _) (Mat.tmul_WF _ _) (by rw [Mat.mul_nrows]; simp [Mat.tmul]) rfl ?_
          intro a t ha ht
          have ha : a < 1 := by rw [Mat.mul_nrows] at ha; simpa [Mat.tmul, hAc] using ha
          obtain rfl : a = 0 := by omega
          have ht : t < T.cols := ht
          rw [hmul (Mat.ofFn 1 T.cols fun _ t => (A.tmul T).get 0 t / q) (by simp) rfl t ht, Mat.get_ofFn_lt (by omega) ht]
          field_simp
        · intro y hy hyn hyc hyb
          have hyn : y.nrows = 1 := hyn
          have hyc : y.cols = T.cols := hyc
          refine Mat.ext_get hy (Mat.ofFn_WF _ _ _) (by simp [hyn]) hyc ?_
          intro a t ha ht
          obtain rfl : a = 0 := by omega
          have ht : t < T.cols := by omega
          rw [Mat.get_ofFn_lt (by omega) ht, ← hyb, hmul y hyn hyc t ht]
          field_simp
      have : ∀ s ∈ range T.nrows, (T.get s t - F.get s t) * X.get s i =
          X.get s i * T.get s t - X.get s i * X.get s i * ((A.tmul T).get 0 t / q) := by
        intro s hs
        rw [hF s (Finset.mem_range.1 hs) t ht, hsol, Mat.get_ofFn_lt (by omega) ht]
        ring
      rw [Finset.sum_congr rfl this, Finset.sum_sub_distrib, ← Finset.sum_mul, ← hq, ← hb1 t ht]
      field_simp
      ring

/-- The gap of a column, in terms of the specification. -/
theorem gap_spec {env : Env ℝ} (hr : RealFns env) {X T F : Mat ℝ} (hN : X.nrows = T.nrows) (hFn : F.nrows = T.nrows) (hFc : F.cols = T.cols) {j : Nat}
    (hF : LeastSquares X T [j] F) (a : Nat) {y : ℝ} (hy : y ≤ 1) :
    gap env (norm2 env (corr2 X (T.sub (Mat.zeros T.nrows T.cols)) j)) (corr2 X (T.sub (Mat.zeros T.nrows T.cols)) a)
      (corr2 X (F.sub (Mat.zeros T.nrows T.cols)) a) y =
    normCorr X T (fun s t => y * F.get s t) j - normCorr X T (fun s t => y * F.get s t) a := by
  have sc : ∀ R : Mat ℝ, (R.sub (Mat.zeros T.nrows T.cols)).cols = R.cols := fun R => by simp [Mat.sub]
  have sn : ∀ R : Mat ℝ, (R.sub (Mat.zeros T.nrows T.cols)).nrows = R.nrows := fun R => by simp [Mat.sub]
  have sg : ∀ (R : Mat ℝ) s t, s < R.nrows → t < R.cols → (R.sub (Mat.zeros T.nrows T.cols)).get s t = R.get s t := by
    intro R s t hs ht
    unfold Mat.sub
    rw [Mat.get_ofFn_lt hs ht, Mat.get_zeros, sub_zero]
  have hcT : ∀ i, corr2 X (T.sub (Mat.zeros T.nrows T.cols)) i = (List.range T.cols).map fun t => ∑ s ∈ range T.nrows, T.get s t * X.get s i := by
    intro i
    unfold corr2
    rw [sc]
    apply List.map_congr_left
    intro t ht
    rw [dot_col (by rw [sn, hN]), sn]
    apply Finset.sum_congr rfl
    intro s hs
    rw [sg T s t (Finset.mem_range.1 hs) (List.mem_range.1 ht)]
  have hcF : ∀ i, corr2 X (F.sub (Mat.zeros T.nrows T.cols)) i = (List.range T.cols).map fun t => ∑ s ∈ range T.nrows, F.get s t * X.get s i := by
    intro i
    unfold corr2
    rw [sc, hFc]
    apply List.map_congr_left
    intro t ht
    rw [dot_col (by rw [sn, hN, hFn]), sn, hFn]
    apply Finset.sum_congr rfl
    intro s hs
    rw [sg F s t (by rw [hFn]; exact Finset.mem_range.1 hs) (by rw [hFc]; exact List.mem_range.1 ht)]
  have hn : ∀ g : Nat → ℝ, norm2 env ((List.range T.cols).map g) = Real.sqrt (∑ t ∈ range T.cols, g t ^ 2) := by
    intro g
    unfold norm2
    rw [hr.sqrt, List.map_map, sum_range_list]
    congr 1
    apply Finset.sum_congr rfl
    intro t _
    simp only [Function.comp, sq]
  unfold gap
  rw [hcT, hcT, hcF, hn, List.zipWith_map, List.zipWith_self, hn]
  congr 1
  · unfold normCorr
    have : ∀ t ∈ range T.cols, (∑ s ∈ range T.nrows, (T.get s t - y * F.get s t) * X.get s j) ^ 2 =
        (1 - y) ^ 2 * (∑ s ∈ range T.nrows, T.get s t * X.get s j) ^ 2 := by
      intro t ht
      have h0 := hF.2 j (by simp) t (Finset.mem_range.1 ht)
      have h1 : ∑ s ∈ range T.nrows, (T.get s t - y * F.get s t) * X.get s j =
          (1 - y) * ∑ s ∈ range T.nrows, T.get s t * X.get s j + y * ∑ s ∈ range T.nrows, (T.get s t - F.get s t) * X.get s j := by
        rw [Finset.mul_sum, Finset.mul_sum, ← Finset.sum_add_distrib]
        apply Finset.sum_congr rfl
        intro s _
        ring
      rw [h1, h0]
      ring
    rw [Finset.sum_congr rfl this, ← Finset.mul_sum, Real.sqrt_mul (sq_nonneg _), Real.sqrt_sq (by linarith)]
  · unfold normCorr
    congr 1
    apply Finset.sum_congr rfl
    intro t _
    congr 1
    rw [Finset.mul_sum, ← Finset.sum_sub_distrib]
    apply Finset.sum_congr rfl
    intro s _
    ring

/-- A later step of `mrsr2`. -/
theorem mrsr2Step_lit {K : Type} [Field K] [LinearOrder K] [IsStrictOrderedRing K] (env : Env K) (X T : Mat K) (rank nonrank : List Nat) (Y F : Mat K) (j : Nat) (jm : Option Nat) (h1 : rank ≠ []) (h2 : nonrank ≠ []) :
    mrsr2Step env X T ⟨rank, nonrank, Y, F, j, jm⟩ =
      let r := mrsr2Search env (norm2 env (corr2 X (T.sub Y) j)) (corr2 X (T.sub Y)) (corr2 X (F.sub Y)) nonrank 1 jm
      match (if r.1 = 1 then nonrank.getLast? else r.2) with
      | none => .error .nonFinite
      | some j =>
        if j ∈ nonrank then .ok (mrsr2Upd env X T ⟨rank ++ [j], nonrank.erase j, Y, F, j, some j⟩ r.1)
        else .error .valueError := by
  rw [mrsr2Step_eq, if_neg (by simpa using h1), if_neg (by simpa using h2)]
  rfl

/-- C122, second pick.  If, after a move of relative length 10⁻¹⁵, every other column is still less correlated than the first one, the second column of the
ranking is the first to catch up: after some move towards the least-squares fit of the first column the two are equally correlated with what is not explained,
and no column is more correlated.

Missing for the full property: ties at the start (`C85_many_outputs_refuted`), and all further picks (`C122_third_refuted`). -/
theorem C122_second_partial (env : Env ℝ) (hr : RealFns env) (hb : FindsRoots env.brentq) (hlu : SolvesUnique env.luSolve) (X T : Mat ℝ)
    (hN : X.nrows = T.nrows) (kmax : Nat) (j i : Nat) (l : List Nat) (h : mrsr2 env X T kmax = .ok (j :: i :: l))
    (hsep : ∀ F, LeastSquares X T [j] F → ∀ a < X.cols, a ≠ j →
      normCorr X T (fun s t => 1 / 10 ^ 15 * F.get s t) a < normCorr X T (fun s t => 1 / 10 ^ 15 * F.get s t) j) :
    ∃ (F : Mat ℝ) (g : ℝ), LeastSquares X T [j] F ∧ 0 ≤ g ∧ g ≤ 1 ∧
      normCorr X T (fun s t => g * F.get s t) i = normCorr X T (fun s t => g * F.get s t) j ∧
      ∀ a < X.cols, normCorr X T (fun s t => g * F.get s t) a ≤ normCorr X T (fun s t => g * F.get s t) j := by
  have hlen := mrsr2_ok h
  have hk : 0 < kmax ∧ 0 < X.nrows := by
    unfold mrsr2 at h
    obtain ⟨st, h1, h⟩ := bind_ok h
    injection h with h
    rcases Nat.eq_zero_or_pos (min kmax X.nrows) with h0 | h0
    · rw [h0] at h1
      unfold mrsr2Loop at h1
      injection h1 with h1
      rw [← h1] at h
      cases h
    · omega
  obtain ⟨j', st, hj, hmax, hl, hst⟩ := mrsr2_first_step hr hN hk.1 hk.2 h
  have hpre := mrsr2Loop_prefix hl
  obtain rfl : j' = j := by
    obtain ⟨l', hl'⟩ := hpre
    rw [hst] at hl'
    have : j :: i :: l = j' :: l' := hl'
    injection this with h1
    exact h1.symm
  obtain ⟨hF, hFn, hFc⟩ := fit_one hlu hN j'
  obtain ⟨F, hFe⟩ : ∃ F, F = (X.selCols [j']).mul (env.luSolve ((X.selCols [j']).tmul (X.selCols [j'])) ((X.selCols [j']).tmul T)) := ⟨_, rfl⟩
  rw [← hFe] at hF hFn hFc
  have hupd : mrsr2Upd env X T (pick1 X T j') 1 =
      ⟨[j'], (List.range X.cols).erase j', Mat.zeros T.nrows T.cols, F, j', none⟩ := by
    unfold mrsr2Upd
    rw [if_neg (by simp [pick1]), hFe]
    rfl
  rw [hupd] at hl
  obtain ⟨k, hk'⟩ : ∃ k, min kmax X.nrows - 1 = k + 1 := by
    rcases Nat.eq_zero_or_pos (min kmax X.nrows - 1) with h0 | h0
    · rw [h0] at hl
      unfold mrsr2Loop at hl
      injection hl with hl
      rw [← hl] at hst
      cases hst
    · exact ⟨_, (Nat.sub_add_cancel h0).symm⟩
  rw [hk'] at hl
  unfold mrsr2Loop at hl
  obtain ⟨s2, h2, hl⟩ := bind_ok hl
  obtain ⟨⟨rest, hp⟩, _⟩ := hlen
  obtain ⟨hnd, hlt⟩ := nodup_valid hp
  have hij : i ≠ j' := by rintro rfl; simp at hnd
  have hin : i ∈ (List.range X.cols).erase j' := (List.mem_erase_of_ne hij).2 (List.mem_range.2 (hlt i (by simp)))
  rw [mrsr2Step_lit _ _ _ _ _ _ _ _ _ (by simp) (by intro h0; rw [h0] at hin; cases hin)] at h2
  have hgap := fun a (y : ℝ) (hy : y ≤ 1) => gap_spec hr hN hFn hFc hF a hy
  have hnr : ∀ a ∈ (List.range X.cols).erase j', a < X.cols ∧ a ≠ j' := by
    intro a ha
    have h1 := List.mem_of_mem_erase ha
    refine ⟨List.mem_range.1 h1, ?_⟩
    rintro rfl
    exact (List.nodup_range.not_mem_erase) ha
  have hspec := search_spec hr hb (norm2 env (corr2 X (T.sub (Mat.zeros T.nrows T.cols)) j')) (corr2 X (T.sub (Mat.zeros T.nrows T.cols)))
    (corr2 X (F.sub (Mat.zeros T.nrows T.cols))) ((List.range X.cols).erase j') 1 none (by norm_num) (by
      intro a ha
      rw [hgap a _ (by norm_num)]
      have := hsep F hF a (hnr a ha).1 (hnr a ha).2
      linarith)
  obtain ⟨r, hrr⟩ : ∃ r, r = mrsr2Search env (norm2 env (corr2 X (T.sub (Mat.zeros T.nrows T.cols)) j')) (corr2 X (T.sub (Mat.zeros T.nrows T.cols)))
    (corr2 X (F.sub (Mat.zeros T.nrows T.cols))) ((List.range X.cols).erase j') 1 none := ⟨_, rfl⟩
  rw [← hrr] at hspec
  simp only at h2
  rw [← hrr] at h2
  obtain ⟨q1, q2, q3, q4⟩ := hspec
  have hall : ∀ a < X.cols, normCorr X T (fun s t => r.1 * F.get s t) a ≤ normCorr X T (fun s t => r.1 * F.get s t) j' := by
    intro a ha
    by_cases haj : a = j'
    · rw [haj]
    · have := q3 a ((List.mem_erase_of_ne haj).2 (List.mem_range.2 ha))
      rw [hgap a _ q2] at this
      linarith
  refine ⟨F, r.1, hF, le_trans (by norm_num) q1, q2, ?_, hall⟩
  by_cases h1 : r.1 = 1
  · have hz : normCorr X T (fun s t => r.1 * F.get s t) j' = 0 := by
      unfold normCorr
      rw [h1, Real.sqrt_eq_zero']
      apply le_of_eq
      apply Finset.sum_eq_zero
      intro t ht
      have := hF.2 j' (by simp) t (Finset.mem_range.1 ht)
      simp only [one_mul]
      rw [this]
      norm_num
    refine le_antisymm (hall i (hlt i (by simp))) ?_
    rw [hz]
    exact Real.sqrt_nonneg _
  · rcases q4 with ⟨hq, _⟩ | ⟨_, i', hi', e1, e2⟩
    · exact absurd hq h1
    · rw [if_neg h1, e1] at h2
      simp only at h2
      rw [if_pos hi'] at h2
      injection h2 with h2
      obtain ⟨l', hl'⟩ := mrsr2Loop_prefix hl
      have hrank : s2.rank = [j', i'] := by
        rw [← h2]
        unfold mrsr2Upd
        split <;> rfl
      rw [hst, hrank] at hl'
      have : i = i' := by
        injection hl' with _ hl'
        injection hl'
      rw [this]
      rw [hgap i' _ q2] at e2
      linarith

/-! ### The third pick -/

/-- Four uncorrelated columns, and ten targets of which only the first is not zero. -/
def eyeX : Mat ℚ := ⟨4, [[1, 0, 0, 0], [0, 1, 0, 0], [0, 0, 1, 0], [0, 0, 0, 1]]⟩
def eyeT : Mat ℚ := ⟨10, [[16, 0, 0, 0, 0, 0, 0, 0, 0, 0], [8, 0, 0, 0, 0, 0, 0, 0, 0, 0], [6, 0, 0, 0, 0, 0, 0, 0, 0, 0], [5, 0, 0, 0, 0, 0, 0, 0, 0, 0]]⟩

def eyeF1 : Mat ℚ := ⟨10, [[16, 0, 0, 0, 0, 0, 0, 0, 0, 0], [0, 0, 0, 0, 0, 0, 0, 0, 0, 0], [0, 0, 0, 0, 0, 0, 0, 0, 0, 0], [0, 0, 0, 0, 0, 0, 0, 0, 0, 0]]⟩
def eyeF2 : Mat ℚ := ⟨10, [[16, 0, 0, 0, 0, 0, 0, 0, 0, 0], [8, 0, 0, 0, 0, 0, 0, 0, 0, 0], [0, 0, 0, 0, 0, 0, 0, 0, 0, 0], [0, 0, 0, 0, 0, 0, 0, 0, 0, 0]]⟩
def eyeY2 : Mat ℚ := ⟨10, [[8, 0, 0, 0, 0, 0, 0, 0, 0, 0], [4, 0, 0, 0, 0, 0, 0, 0, 0, 0], [0, 0, 0, 0, 0, 0, 0, 0, 0, 0], [0, 0, 0, 0, 0, 0, 0, 0, 0, 0]]⟩

theorem eye_get {s j : Nat} (hs : s < 4) (hj : j < 4) : eyeX.get s j = if s = j then 1 else 0 := by
  interval_cases s <;> interval_cases j <;> rfl

/-- On the path, nothing is fitted outside the columns taken in. -/
theorem eye_path {l : List Nat} {Y : Mat ℚ} (h : Path eyeX eyeT l Y) : (∀ i ∈ l, i < 4) ∧ ∀ s < 4, s ∉ l → ∀ t < 10, Y.get s t = 0 := by
  induction h with
  | start => exact ⟨by simp, fun s _ _ t _ => Mat.get_zeros _ _ _ _⟩
  | @step l j Y F Y' g c hp hn hF h0 h1 hY _ _ _ ih =>
    have hl : ∀ i ∈ l ++ [j], i < 4 := by
      intro i hi
      rcases List.mem_append.1 hi with hi | hi
      · exact ih.1 i hi
      · obtain rfl : i = j := by simpa using hi
        exact hn.1
    refine ⟨hl, ?_⟩
    intro s hs hsl t ht
    obtain ⟨W, hW⟩ := hF.1
    rw [hY s hs t ht, ih.2 s hs (fun h => hsl (List.mem_append_left _ h)) t ht, hW s hs t ht]
    have : ∑ a ∈ range (l ++ [j]).length, eyeX.get s ((l ++ [j]).getD a 0) * W a t = 0 := by
      apply Finset.sum_eq_zero
      intro a ha
      have ha := Finset.mem_range.1 ha
      have hm : (l ++ [j]).getD a 0 ∈ l ++ [j] := by
        rw [List.getD_eq_getElem _ _ ha]; exact List.getElem_mem ha
      rw [eye_get hs (hl _ hm), if_neg (by rintro rfl; exact hsl hm), zero_mul]
    rw [this]
    ring

theorem eye_not_path : ¬ PathRanking eyeX eyeT [0, 1, 3] := by
  rintro ⟨l, j, Y, hr, hp, hn⟩
  have hr' : [0, 1] ++ [3] = l ++ [j] := hr
  obtain ⟨rfl, h2⟩ := List.append_inj' hr' rfl
  injection h2 with h2
  subst h2
  have hz := (eye_path hp).2
  have h10 : ∀ i < 4, ∑ t ∈ range eyeT.cols, |eyeT.get i t| = |eyeT.get i 0| := by decide +kernel
  have hres : ∀ i < 4, i ∉ [0, 1] → resCorr eyeX eyeT Y i = |eyeT.get i 0| := by
    intro i hi hil
    unfold resCorr
    have : ∀ t ∈ range eyeT.cols, |∑ s ∈ range eyeT.nrows, (eyeT.get s t - Y.get s t) * eyeX.get s i| = |eyeT.get i t| := by
      intro t ht
      have ht : t < 10 := Finset.mem_range.1 ht
      rw [Finset.sum_eq_single i]
      · rw [eye_get hi hi, if_pos rfl, hz i hi hil t ht, sub_zero, mul_one]
      · intro s hs hsi
        rw [eye_get (Finset.mem_range.1 hs) hi, if_neg hsi, mul_zero]
      · intro h; exact absurd (Finset.mem_range.2 hi) h
    rw [Finset.sum_congr rfl this]
    exact h10 i hi
  have := hn.2.2 2 (by decide)
  rw [hres 2 (by decide) (by decide), hres 3 (by decide) (by decide)] at this
  exact absurd this (by decide +kernel)

theorem lu_one {env : Env ℚ} (hlu : SolvesUnique env.luSolve) (n : Nat) (b : Mat ℚ) (hb : b.WF) (hn : b.nrows = n) : env.luSolve (Mat.diag n 1) b = b := by
  have hmul : ∀ y : Mat ℚ, y.WF → y.nrows = n → (Mat.diag n 1).mul y = y := by
    intro y hy hyn
    refine Mat.ext_get (Mat.mul_WF _ _) hy (by rw [Mat.mul_nrows]; simp [Mat.diag, hyn]) rfl ?_
    intro i t hi ht
    have hi : i < n := by rw [Mat.mul_nrows] at hi; simpa [Mat.diag] using hi
    have ht : t < y.cols := ht
    rw [get_mul_sum (by simpa [Mat.diag] using hi) ht, hyn, Finset.sum_eq_single i]
    · rw [Mat.get_diag hi hi, if_pos rfl, one_mul]
    · intro s hs hsi
      rw [Mat.get_diag hi (Finset.mem_range.1 hs), if_neg (Ne.symm hsi), zero_mul]
    · intro h; exact absurd (Finset.mem_range.2 hi) h
  refine hlu.unique _ _ _ (Mat.diag_WF _ _) (by simp [Mat.diag]) hb (by simpa [Mat.diag] using hn) hb (by simpa [Mat.diag] using hn) rfl (hmul b hb hn) ?_
  intro y hy hyn _ hyb
  rw [← hyb, hmul y hy (by simpa [Mat.diag] using hyn)]

/-- C122 is false from the third pick on, also without ties.  Whatever the square root, the root finder and the solver of linear systems, as long as they
are right: four uncorrelated columns with correlations 16, 8, 6 and 5 with the target are ranked first, second, fourth.  (`mrsr2` moves the fitted values
towards the least-squares fit that includes the new column, with a step length computed for the fit without it.) -/
theorem C122_third_refuted (env : Env ℚ) (hs : ∀ a, env.sqrt (a * a) = |a|) (hb : FindsRoots env.brentq) (hlu : SolvesUnique env.luSolve) :
    mrsr2 env eyeX eyeT 3 = .ok [0, 1, 3] ∧ ¬ PathRanking eyeX eyeT [0, 1, 3] := by
  refine ⟨?_, eye_not_path⟩
  have hf : ∀ (R : Mat ℚ) (j : Nat) (a : ℚ), corr2 eyeX R j = [a, 0, 0, 0, 0, 0, 0, 0, 0, 0] → norm2 env (corr2 eyeX R j) = |a| := by
    intro R j a h
    rw [h, norm2_first hs]
  have hfit : ∀ (l : List Nat) (n : Nat) (F : Mat ℚ), (eyeX.selCols l).tmul (eyeX.selCols l) = Mat.diag n 1 → l.length = n →
      (eyeX.selCols l).mul ((eyeX.selCols l).tmul eyeT) = F →
      (eyeX.selCols l).mul (env.luSolve ((eyeX.selCols l).tmul (eyeX.selCols l)) ((eyeX.selCols l).tmul eyeT)) = F := by
    intro l n F h1 h2 h3
    rw [h1, lu_one hlu n _ (Mat.tmul_WF _ _) (by simpa [Mat.tmul, Mat.selCols] using h2), h3]
  have s1 : mrsr2Step env eyeX eyeT ⟨[], [0, 1, 2, 3], Mat.zeros 4 10, Mat.zeros 4 10, 0, none⟩ =
      .ok ⟨[0], [1, 2, 3], Mat.zeros 4 10, eyeF1, 0, none⟩ := by
    have hc : mrsr2First (fun j => norm2 env (corr2 eyeX eyeT j)) [0, 1, 2, 3] (-1) none = some 0 := by
      have n0 := hf eyeT 0 16 (by decide +kernel)
      have n1 := hf eyeT 1 8 (by decide +kernel)
      have n2 := hf eyeT 2 6 (by decide +kernel)
      have n3 := hf eyeT 3 5 (by decide +kernel)
      simp only [mrsr2First, n0, n1, n2, n3]
      norm_num
    rw [mrsr2Step_eq]
    simp only [List.isEmpty_nil, if_true, hc]
    unfold mrsr2Upd
    rw [if_neg (by simp)]
    simp only [List.nil_append]
    rw [hfit [0] 1 eyeF1 (by decide +kernel) rfl (by decide +kernel)]
    rfl
  have s2 : mrsr2Step env eyeX eyeT ⟨[0], [1, 2, 3], Mat.zeros 4 10, eyeF1, 0, none⟩ = .ok ⟨[0, 1], [2, 3], eyeY2, eyeF2, 1, some 1⟩ := by
    rw [mrsr2Step_lit _ _ _ _ _ _ _ _ _ (by simp) (by simp)]
    have n0 := hf (eyeT.sub (Mat.zeros 4 10)) 0 16 (by decide +kernel)
    have hsr : mrsr2Search env (norm2 env (corr2 eyeX (eyeT.sub (Mat.zeros 4 10)) 0)) (corr2 eyeX (eyeT.sub (Mat.zeros 4 10)))
        (corr2 eyeX (eyeF1.sub (Mat.zeros 4 10))) [1, 2, 3] 1 none = (1 / 2, some 1) := by
      rw [n0]
      have z : ∀ (a y : ℚ), List.zipWith (fun a b : ℚ => a - y * b) [a, 0, 0, 0, 0, 0, 0, 0, 0, 0] [0, 0, 0, 0, 0, 0, 0, 0, 0, 0] =
          [a, 0, 0, 0, 0, 0, 0, 0, 0, 0] := by intro a y; simp
      have c1 : corr2 eyeX (eyeT.sub (Mat.zeros 4 10)) 1 = [8, 0, 0, 0, 0, 0, 0, 0, 0, 0] := by decide +kernel
      have c2 : corr2 eyeX (eyeT.sub (Mat.zeros 4 10)) 2 = [6, 0, 0, 0, 0, 0, 0, 0, 0, 0] := by decide +kernel
      have c3 : corr2 eyeX (eyeT.sub (Mat.zeros 4 10)) 3 = [5, 0, 0, 0, 0, 0, 0, 0, 0, 0] := by decide +kernel
      have d1 : corr2 eyeX (eyeF1.sub (Mat.zeros 4 10)) 1 = [0, 0, 0, 0, 0, 0, 0, 0, 0, 0] := by decide +kernel
      have d2 : corr2 eyeX (eyeF1.sub (Mat.zeros 4 10)) 2 = [0, 0, 0, 0, 0, 0, 0, 0, 0, 0] := by decide +kernel
      have d3 : corr2 eyeX (eyeF1.sub (Mat.zeros 4 10)) 3 = [0, 0, 0, 0, 0, 0, 0, 0, 0, 0] := by decide +kernel
      have hroot : env.brentq (fun y => (1 - y) * |16| - |8|) (1 / 10 ^ 15) 1 = some (1 / 2) := by
        refine hb.2 _ _ _ _ (by norm_num) (by norm_num) (by norm_num) ?_ ?_
        · intro x _ hx; norm_num; linarith
        · intro x hx _; norm_num; linarith
      simp only [mrsr2Search, c1, c2, c3, d1, d2, d3, z, norm2_first hs, hroot]
      norm_num
    simp only [hsr]
    unfold mrsr2Upd
    rw [if_neg (by norm_num)]
    simp only [List.mem_cons, true_or, if_true]
    rw [if_pos (by simp)]
    simp only [List.cons_append, List.nil_append]
    rw [hfit [0, 1] 2 eyeF2 (by decide +kernel) rfl (by decide +kernel)]
    have : Mat.comb (1 - 1 / 2) (Mat.zeros 4 10) (1 / 2) eyeF2 = eyeY2 := by decide +kernel
    rw [this]
    rfl
  have s3 : ∃ st, mrsr2Step env eyeX eyeT ⟨[0, 1], [2, 3], eyeY2, eyeF2, 1, some 1⟩ = .ok st ∧ st.rank = [0, 1, 3] := by
    rw [mrsr2Step_lit _ _ _ _ _ _ _ _ _ (by simp) (by simp)]
    have n0 := hf (eyeT.sub eyeY2) 1 4 (by decide +kernel)
    have hsr : mrsr2Search env (norm2 env (corr2 eyeX (eyeT.sub eyeY2) 1)) (corr2 eyeX (eyeT.sub eyeY2))
        (corr2 eyeX (eyeF2.sub eyeY2)) [2, 3] 1 (some 1) = (1, some 1) := by
      rw [n0]
      have z : ∀ (a y : ℚ), List.zipWith (fun a b : ℚ => a - y * b) [a, 0, 0, 0, 0, 0, 0, 0, 0, 0] [0, 0, 0, 0, 0, 0, 0, 0, 0, 0] =
          [a, 0, 0, 0, 0, 0, 0, 0, 0, 0] := by intro a y; simp
      have c2 : corr2 eyeX (eyeT.sub eyeY2) 2 = [6, 0, 0, 0, 0, 0, 0, 0, 0, 0] := by decide +kernel
      have c3 : corr2 eyeX (eyeT.sub eyeY2) 3 = [5, 0, 0, 0, 0, 0, 0, 0, 0, 0] := by decide +kernel
      have d2 : corr2 eyeX (eyeF2.sub eyeY2) 2 = [0, 0, 0, 0, 0, 0, 0, 0, 0, 0] := by decide +kernel
      have d3 : corr2 eyeX (eyeF2.sub eyeY2) 3 = [0, 0, 0, 0, 0, 0, 0, 0, 0, 0] := by decide +kernel
      have r2 : env.brentq (fun y => (1 - y) * |4| - |6|) (1 / 10 ^ 15) 1 = none := hb.1 _ _ _ (by norm_num)
      have r3 : env.brentq (fun y => (1 - y) * |4| - |5|) (1 / 10 ^ 15) 1 = none := hb.1 _ _ _ (by norm_num)
      simp only [mrsr2Search, c2, c3, d2, d3, z, norm2_first hs, r2, r3]
      norm_num
    simp only [hsr, if_true]
    refine ⟨_, rfl, ?_⟩
    unfold mrsr2Upd
    split <;> rfl
  obtain ⟨st, s3, hr⟩ := s3
  unfold mrsr2
  show (do let st ← mrsr2Loop env eyeX eyeT 3 ⟨[], [0, 1, 2, 3], Mat.zeros 4 10, Mat.zeros 4 10, 0, none⟩
           pure st.rank) = _
  simp only [mrsr2Loop, s1, s2, s3, bind, Except.bind, pure, Except.pure, hr]

/-! ### The hypotheses can be met -/

/-- There are routines with the properties assumed, over any field. -/
theorem solver_exists (K : Type) [Field K] : ∃ solve : Mat K → Mat K → Mat K, SolvesUnique solve := by
  classical
  let P (A b x : Mat K) : Prop := x.WF ∧ x.nrows = A.cols ∧ x.cols = b.cols ∧ A.mul x = b ∧
      ∀ y : Mat K, y.WF → y.nrows = A.cols → y.cols = b.cols → A.mul y = b → y = x
  refine ⟨fun A b => if h : b.nrows = A.cols ∧ ∃ x, P A b x then h.2.choose else Mat.zeros b.nrows b.cols, ?_, ?_⟩
  · intro A b
    by_cases h : b.nrows = A.cols ∧ ∃ x, P A b x
    · simp only [dif_pos h]
      exact ⟨h.2.choose_spec.2.1.trans h.1.symm, h.2.choose_spec.2.2.1⟩
    · simp only [dif_neg h]
      exact ⟨by simp, rfl⟩
  · intro A b x _ _ _ hb hx hxn hxc hm hu
    have h : b.nrows = A.cols ∧ ∃ x, P A b x := ⟨hb, x, hx, hxn, hxc, hm, hu⟩
    simp only [dif_pos h]
    obtain ⟨a1, a2, a3, a4, _⟩ := h.2.choose_spec
    exact hu _ a1 a2 a3 a4

theorem rootFinder_exists (K : Type) [Field K] [LinearOrder K] [IsStrictOrderedRing K] : ∃ f : (K → K) → K → K → Option K, FindsRoots f := by
  classical
  refine ⟨fun f a b => if 0 < f a * f b then none else if h : ∃ z, a ≤ z ∧ z ≤ b ∧ f z = 0 then some h.choose else none, ?_, ?_⟩
  · intro f a b h
    exact if_pos h
  · intro f a b z h1 h2 h3 h4 h5
    have hneg : ¬ 0 < f a * f b := by
      have ha : 0 ≤ f a := by
        rcases h1.lt_or_eq with h | h
        · exact (h4 a le_rfl h).le
        · rw [h, h3]
      have hb : f b ≤ 0 := by
        rcases h2.lt_or_eq with h | h
        · exact (h5 b h le_rfl).le
        · rw [← h, h3]
      exact not_lt.2 (mul_nonpos_of_nonneg_of_nonpos ha hb)
    have hex : ∃ z, a ≤ z ∧ z ≤ b ∧ f z = 0 := ⟨z, h1, h2, h3⟩
    simp only [if_neg hneg, dif_pos hex]
    congr 1
    obtain ⟨c1, c2, c3⟩ := hex.choose_spec
    rcases lt_trichotomy hex.choose z with h | h | h
    · exact absurd c3 (h4 _ c1 h).ne'
    · exact h
    · exact absurd c3 (h5 _ h c2).ne

/-- The hypotheses of `C122_third_refuted`. -/
example : ∃ env : Env ℚ, (∀ a, env.sqrt (a * a) = |a|) ∧ FindsRoots env.brentq ∧ SolvesUnique env.luSolve := by
  classical
  obtain ⟨sol, hsol⟩ := solver_exists ℚ
  obtain ⟨root, hroot⟩ := rootFinder_exists ℚ
  refine ⟨{ QEnv.env with sqrt := fun x => if h : ∃ a, a * a = x then |h.choose| else 0, brentq := root, luSolve := sol }, ?_, hroot, hsol⟩
  intro a
  have h : ∃ c, c * c = a * a := ⟨a, rfl⟩
  simp only
  rw [dif_pos h]
  exact abs_eq_abs.2 (mul_self_eq_mul_self_iff.1 h.choose_spec)

/-- Two columns and one target (the function itself takes any number of targets): all hypotheses of `C122_first` and `C122_second_partial` hold. -/
example (base : Env ℝ) (hr : RealFns base) : ∃ (env : Env ℝ) (X T : Mat ℝ), RealFns env ∧ FindsRoots env.brentq ∧ SolvesUnique env.luSolve ∧ X.nrows = T.nrows ∧
    mrsr2 env X T 2 = .ok [0, 1] ∧
    ∀ F, LeastSquares X T [0] F → ∀ a < X.cols, a ≠ 0 →
      normCorr X T (fun s t => 1 / 10 ^ 15 * F.get s t) a < normCorr X T (fun s t => 1 / 10 ^ 15 * F.get s t) 0 := by
  obtain ⟨sol, hsol⟩ := solver_exists ℝ
  obtain ⟨root, hroot⟩ := rootFinder_exists ℝ
  obtain ⟨env, henv⟩ : ∃ env : Env ℝ, env = { base with luSolve := sol, brentq := root } := ⟨_, rfl⟩
  have hr' : RealFns env := by rw [henv]; exact ⟨hr.exp, hr.tanh, hr.sqrt⟩
  have hl : SolvesUnique env.luSolve := by rw [henv]; exact hsol
  have hb : FindsRoots env.brentq := by rw [henv]; exact hroot
  obtain ⟨X, hX⟩ : ∃ X : Mat ℝ, X = ⟨2, [[1, 0], [0, 1]]⟩ := ⟨_, rfl⟩
  obtain ⟨T, hT⟩ : ∃ T : Mat ℝ, T = ⟨1, [[2], [1]]⟩ := ⟨_, rfl⟩
  have hN : X.nrows = T.nrows := by rw [hX, hT]; rfl
  refine ⟨env, X, T, hr', hb, hl, hN, ?_, ?_⟩
  · have hc : ∀ j, corr2 X T j = [T.get 0 0 * X.get 0 j + T.get 1 0 * X.get 1 j] := by
      intro j
      unfold corr2
      rw [show T.cols = 1 by rw [hT]]
      simp only [List.range_succ, List.range_zero, List.nil_append, List.map_cons, List.map_nil]
      rw [dot_col hN, show T.nrows = 2 by rw [hT]; rfl, Finset.sum_range_succ, Finset.sum_range_one]
    have hn : ∀ a : ℝ, norm2 env [a] = |a| := by
      intro a
      unfold norm2
      rw [hr'.sqrt]
      simp [Real.sqrt_mul_self_eq_abs]
    have c0 : norm2 env (corr2 X T 0) = 2 := by
      rw [hc, hn, hX, hT]; simp [Mat.get]
    have c1 : norm2 env (corr2 X T 1) = 1 := by
      rw [hc, hn, hX, hT]; simp [Mat.get]
    have hf : mrsr2First (fun j => norm2 env (corr2 X T j)) [0, 1] (-1) none = some 0 := by
      simp only [mrsr2First, c0, c1]
      norm_num
    have hXn : min 2 X.nrows = 2 := by rw [hX]; rfl
    have hXc : List.range X.cols = [0, 1] := by rw [hX]; rfl
    obtain ⟨F, s1⟩ : ∃ F, mrsr2Step env X T ⟨[], [0, 1], Mat.zeros T.nrows T.cols, Mat.zeros T.nrows T.cols, 0, none⟩ =
        .ok ⟨[0], [1], Mat.zeros T.nrows T.cols, F, 0, none⟩ := by
      rw [mrsr2Step_eq]
      simp only [List.isEmpty_nil, if_true, hf]
      unfold mrsr2Upd
      rw [if_neg (by simp)]
      exact ⟨_, rfl⟩
    obtain ⟨st, s2, hrank⟩ : ∃ st, mrsr2Step env X T ⟨[0], [1], Mat.zeros T.nrows T.cols, F, 0, none⟩ = .ok st ∧ st.rank = [0, 1] := by
      rw [mrsr2Step_lit _ _ _ _ _ _ _ _ _ (by simp) (by simp)]
      simp only
      have hj : (if (mrsr2Search env (norm2 env (corr2 X (T.sub (Mat.zeros T.nrows T.cols)) 0)) (corr2 X (T.sub (Mat.zeros T.nrows T.cols)))
            (corr2 X (F.sub (Mat.zeros T.nrows T.cols))) [1] 1 none).1 = 1 then [1].getLast?
          else (mrsr2Search env (norm2 env (corr2 X (T.sub (Mat.zeros T.nrows T.cols)) 0)) (corr2 X (T.sub (Mat.zeros T.nrows T.cols)))
            (corr2 X (F.sub (Mat.zeros T.nrows T.cols))) [1] 1 none).2) = some 1 := by
        split_ifs with h1
        · rfl
        · simp only [mrsr2Search] at h1 ⊢
          split_ifs at h1 ⊢
          · split at h1
            · rfl
            · exact absurd rfl h1
          · exact absurd rfl h1
      rw [hj]
      refine ⟨_, rfl, ?_⟩
      unfold mrsr2Upd
      split <;> rfl
    unfold mrsr2
    rw [hXn, hXc]
    simp only [mrsr2Loop, s1, s2, bind, Except.bind, pure, Except.pure, hrank]
  · intro F hF a ha ha0
    obtain rfl : a = 1 := by
      have : X.cols = 2 := by rw [hX]
      omega
    have hTc : T.cols = 1 := by rw [hT]
    have hTn : T.nrows = 2 := by rw [hT]; rfl
    have x00 : X.get 0 0 = 1 := by rw [hX]; rfl
    have x01 : X.get 0 1 = 0 := by rw [hX]; rfl
    have x10 : X.get 1 0 = 0 := by rw [hX]; rfl
    have x11 : X.get 1 1 = 1 := by rw [hX]; rfl
    have t0 : T.get 0 0 = 2 := by rw [hT]; rfl
    have t1 : T.get 1 0 = 1 := by rw [hT]; rfl
    obtain ⟨⟨W, hW⟩, h2⟩ := hF
    have f1 : F.get 1 0 = 0 := by
      rw [hW 1 (by omega) 0 (by omega)]
      simp [x10]
    have f0 : F.get 0 0 = 2 := by
      have := h2 0 (by simp) 0 (by omega)
      rw [hTn, Finset.sum_range_succ, Finset.sum_range_one, x00, x10, t0] at this
      linarith
    unfold normCorr
    rw [hTc, hTn]
    simp only [Finset.sum_range_succ, Finset.sum_range_zero, zero_add, x00, x01, x10, x11, t0, t1, f0, f1]
    apply Real.sqrt_lt_sqrt
    · positivity
    · norm_num

end Hpelm.Props
