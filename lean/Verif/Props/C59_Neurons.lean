import Verif.Spec.Neurons
import Verif.Lemmas.Network
import Verif.Model.Elm
import Verif.Lemmas.QEnv
import Verif.Props.C14_Ridge
import Mathlib.Analysis.SpecialFunctions.Trigonometric.DerivHyp

/-!
# C59 Every hidden output is the documented function of one sample and one neuron
-/

namespace Hpelm.Props
open Hpelm Spec
variable {K : Type} [Field K] [LinearOrder K] [IsStrictOrderedRing K]

omit [LinearOrder K] [IsStrictOrderedRing K] in
theorem zipWith_sum_range (f : K → K → K) (x w : List K) (d : Nat) (hx : x.length = d) (hw : w.length = d) :
    (List.zipWith f x w).sum = ∑ k ∈ Finset.range d, f (x.getD k 0) (w.getD k 0) := by
  induction d generalizing x w with
  | zero =>
    rw [List.length_eq_zero_iff] at hx
    subst hx; simp
  | succ d ih =>
    cases x with
    | nil => simp at hx
    | cons a x =>
      cases w with
      | nil => simp at hw
      | cons c w =>
        rw [Finset.sum_range_succ']
        simp only [List.zipWith_cons_cons, List.sum_cons, List.getD_cons_succ, List.getD_cons_zero]
        rw [ih x w (by simpa using hx) (by simpa using hw), add_comm]

omit [Field K] [IsStrictOrderedRing K] in
theorem foldl_max_isLeast (l : List K) (a : K) : IsLeast {m | a ≤ m ∧ ∀ v ∈ l, v ≤ m} (l.foldl max a) := by
  induction l generalizing a with
  | nil => exact ⟨⟨le_refl _, by simp⟩, fun m hm => hm.1⟩
  | cons v l ih =>
    obtain ⟨h1, h2⟩ := ih (max a v)
    refine ⟨⟨le_trans (le_max_left _ _) h1.1, ?_⟩, ?_⟩
    · intro u hu
      rcases List.mem_cons.1 hu with rfl | hu
      · exact le_trans (le_max_right _ _) h1.1
      · exact h1.2 u hu
    · intro m hm
      exact h2 ⟨max_le hm.1 (hm.2 v List.mem_cons_self), fun u hu => hm.2 u (List.mem_cons_of_mem _ hu)⟩

theorem distLinf_isChebyshev (x w : List K) (d : Nat) (hx : x.length = d) (hw : w.length = d) :
    IsChebyshev d x w (distLinf x w) := by
  have hmem : ∀ v, v ∈ List.zipWith (fun a b => |a - b|) x w ↔ ∃ k < d, v = |x.getD k 0 - w.getD k 0| := by
    intro v
    rw [List.mem_iff_getElem?]
    constructor
    · rintro ⟨k, hk⟩
      rw [List.getElem?_zipWith] at hk
      have hkd : k < d := by
        by_contra hcon
        rw [List.getElem?_eq_none (by omega)] at hk
        cases hk
      have h1 : x[k]? = some (x[k]'(by omega)) := List.getElem?_eq_getElem _
      have h2 : w[k]? = some (w[k]'(by omega)) := List.getElem?_eq_getElem _
      rw [h1, h2] at hk
      injection hk with hk
      exact ⟨k, hkd, by simp [List.getD_eq_getElem?_getD, h1, h2, ← hk]⟩
    · rintro ⟨k, hk, rfl⟩
      have h1 : x[k]? = some (x[k]'(by omega)) := List.getElem?_eq_getElem _
      have h2 : w[k]? = some (w[k]'(by omega)) := List.getElem?_eq_getElem _
      exact ⟨k, by simp [List.getElem?_zipWith, List.getD_eq_getElem?_getD, h1, h2]⟩
  have := foldl_max_isLeast (List.zipWith (fun a b => |a - b|) x w) 0
  unfold IsChebyshev distLinf
  convert this using 3
  simp only [hmem]
  constructor
  · rintro ⟨h1, h2⟩
    exact ⟨h1, by rintro v ⟨k, hk, rfl⟩; exact h2 k hk⟩
  · rintro ⟨h1, h2⟩
    exact ⟨h1, fun k hk => h2 _ ⟨k, hk, rfl⟩⟩

/-- Every entry of the dictionary of functions is the documented formula. -/
theorem act_spec {env : Env K} (hsq : ∀ v : K, 0 ≤ v → env.sqrt v * env.sqrt v = v) {s : String} {a : List K → List K → K → K}
    (ha : act env s = some a) {d : Nat} {x w : List K} (hx : x.length = d) (hw : w.length = d) (b : K) :
    NeuronOutput env d x w b s (a x w b) := by
  have hdot : dot x w + b = affine d x w b := by
    unfold dot affine
    rw [zipWith_sum_range _ x w d hx hw]
  unfold act at ha
  split at ha
  · rename_i hs
    injection ha with ha; subst hs ha
    simp only [hdot]
    exact .lin
  split at ha
  · rename_i _ hs
    injection ha with ha; subst hs ha
    simp only [hdot]
    exact .sigm
  split at ha
  · rename_i _ _ hs
    injection ha with ha; subst hs ha
    simp only [hdot]
    exact .tanh
  split at ha
  · rename_i _ _ _ hs
    injection ha with ha; subst hs ha
    have : distL1 x w = cityblock d x w := zipWith_sum_range _ x w d hx hw
    simp only [this]
    exact .rbfL1
  split at ha
  · rename_i _ _ _ _ hs
    injection ha with ha; subst hs ha
    have h1 : (List.zipWith (fun a b => (a - b) * (a - b)) x w).sum = sqEuclid d x w := by
      rw [zipWith_sum_range _ x w d hx hw]
      exact Finset.sum_congr rfl fun k _ => (sq _).symm
    have h2 : (distL2 env x w) ^ 2 = sqEuclid d x w := by
      rw [sq, distL2, h1]
      exact hsq _ (Finset.sum_nonneg fun k _ => sq_nonneg _)
    simp only [h2]
    exact .rbfL2
  split at ha
  · rename_i _ _ _ _ _ hs
    injection ha with ha; subst hs ha
    exact .rbfLinf _ (distLinf_isChebyshev x w d hx hw)
  · cases ha

/-- C59.  If `project` succeeds, the hidden layer representation has one column per neuron and its entry for sample `i` and
neuron `j` is the documented function (linear, sigmoid, hyperbolic tangent, or a radial basis function of the city block,
euclidean or Chebyshev distance) of that sample and the weights and the bias of that neuron. -/
theorem C59_neuron_formulas (env : Env K) (hsq : ∀ v : K, 0 ≤ v → env.sqrt v * env.sqrt v = v) (fs : Files K) (e : ELM K)
    (hc : Consistent e.nnet) (X H : Mat K) (hX : X.WF) (h : e.project env fs (.mat X) = .ok H) :
    H.WF ∧ H.nrows = X.nrows ∧ H.cols = (neuronList e.nnet).length ∧
      ∀ i x, X.rows[i]? = some x → ∀ j f w b, (neuronList e.nnet)[j]? = some (f, w, b) →
        ∃ s, f = .name s ∧ NeuronOutput env e.nnet.inputs x w b s (H.get i j) := by
  have hcols : X.cols = e.nnet.inputs ∧ e.nnet.project env X = .ok H := by
    simp only [ELM.project, checkOne, pure, Except.pure, bind, Except.bind, pyAssert] at h
    by_cases h1 : X.cols = e.nnet.inputs
    · simp only [h1, decide_true, if_true] at h
      exact ⟨h1, h⟩
    · simp [h1] at h
  obtain ⟨hcol, hp⟩ := hcols
  obtain ⟨w1, w2, w3⟩ := project_WF hc hp
  refine ⟨w1, w2, ?_, ?_⟩
  · rw [w3, length_neuronList fun g hg => ⟨(hc.groups g hg).1, (hc.groups g hg).2.1⟩]
  intro i x hx j f w b hj
  have hmem := List.mem_of_getElem? hj
  simp only [neuronList, List.mem_flatMap, List.mem_map] at hmem
  obtain ⟨g, hg, ⟨w', b'⟩, hwb, heq⟩ := hmem
  simp only [Prod.mk.injEq] at heq
  obtain ⟨rfl, rfl, rfl⟩ := heq
  have hwl : w'.length = e.nnet.inputs := (hc.groups g hg).2.2 _ (List.of_mem_zip hwb).1
  obtain ⟨_, hall, _, _⟩ := (project_ok_iff _ _ _ _).1 hp
  have hgs := hall g hg
  unfold groupAct at hgs
  cases hf : g.func with
  | ufunc s => rw [hf] at hgs; cases hgs
  | name s =>
    rw [hf] at hgs hj
    simp only [Option.isSome_map] at hgs
    obtain ⟨a, ha⟩ := Option.isSome_iff_exists.1 hgs
    refine ⟨s, rfl, ?_⟩
    have hi : i < X.nrows := by
      by_contra hcon
      rw [List.getElem?_eq_none (by simpa [Mat.nrows] using hcon)] at hx
      cases hx
    rw [project_entry hc hp hi hj ha]
    have : X.rows.getD i [] = x := by simp [List.getD_eq_getElem?_getD, hx]
    rw [this]
    exact act_spec hsq ha ((hX x (List.mem_of_getElem? hx)).trans hcol) hwl b'

/-- Hypotheses of `C59_neuron_formulas` are met by a network with a linear and two radial basis function neurons; the second
entry is `exp(-(|1-3|+|2-5|)²/5)`, the third `exp(-max(|1-0|,|2-4|)²/2)` in the rational environment where `exp v = 1/(1-v)` for `v ≤ 0`. -/
example :
    let n := (((NNet.init QEnv.env .python 2 1 none .double).addNeurons 1 (.name "lin") [[2, 1]] [1]).addNeurons 1
      (.name "rbf_l1") [[3, 5]] [5]).addNeurons 1 (.name "rbf_linf") [[0, 4]] [2]
    n.project QEnv.env ⟨2, [[1, 2]]⟩ = .ok ⟨3, [[5, QEnv.env.exp (-25 / 5), QEnv.env.exp (-4 / 2)]]⟩ := by decide +kernel

/-! ### Consequences for real arithmetic -/

theorem abs_tanh_lt (v : ℝ) : |Real.tanh v| < 1 := by
  rw [Real.tanh_eq_sinh_div_cosh, abs_div, abs_of_pos (Real.cosh_pos v), div_lt_one (Real.cosh_pos v), abs_lt]
  constructor
  · have h1 := Real.cosh_eq v
    have h2 := Real.sinh_eq v
    have := Real.exp_pos v
    linarith
  · exact Real.sinh_lt_cosh v

/-- C59, boundedness.  With the real functions, every output of a non-linear neuron is at most 1 in absolute value (radial
basis function neurons: if their width is positive), a sigmoid or radial basis function output is positive. -/
theorem C59_bounded (env : Env ℝ) (h1 : env.exp = Real.exp) (h2 : env.tanh = Real.tanh) (d : Nat) (x w : List ℝ) (b : ℝ)
    (s : String) (y : ℝ) (h : NeuronOutput env d x w b s y) :
    (s = "sigm" → 0 < y ∧ y < 1) ∧ (s = "tanh" → -1 < y ∧ y < 1) ∧
      (s = "rbf_l1" ∨ s = "rbf_l2" ∨ s = "rbf_linf" → 0 < b → 0 < y ∧ y ≤ 1) := by
  have hexp : ∀ v b : ℝ, 0 ≤ v → 0 < b → 0 < Real.exp (-v / b) ∧ Real.exp (-v / b) ≤ 1 := by
    intro v b hv hb
    refine ⟨Real.exp_pos _, Real.exp_le_one_iff.2 ?_⟩
    exact div_nonpos_of_nonpos_of_nonneg (by linarith) hb.le
  cases h with
  | lin => simp
  | sigm =>
    refine ⟨fun _ => ?_, by simp, by simp⟩
    rw [h1]
    have := Real.exp_pos (affine d x w b)
    exact ⟨by positivity, (div_lt_one (by positivity)).2 (by linarith)⟩
  | tanh =>
    refine ⟨by simp, fun _ => ?_, by simp⟩
    rw [h2]
    exact abs_lt.1 (abs_tanh_lt _)
  | rbfL1 => exact ⟨by simp, by simp, fun _ hb => by rw [h1]; exact hexp _ _ (sq_nonneg _) hb⟩
  | rbfL2 =>
    exact ⟨by simp, by simp, fun _ hb => by rw [h1]; exact hexp _ _ (Finset.sum_nonneg fun k _ => sq_nonneg _) hb⟩
  | rbfLinf m hm => exact ⟨by simp, by simp, fun _ hb => by rw [h1]; exact hexp _ _ (sq_nonneg _) hb⟩

theorem eq_of_getD {x w : List ℝ} {d : Nat} (hx : x.length = d) (hw : w.length = d) (h : ∀ k < d, x.getD k 0 = w.getD k 0) :
    x = w := by
  apply List.ext_getElem (by omega)
  intro k h1 h2
  have := h k (by omega)
  simpa [List.getD_eq_getElem?_getD, h1, h2] using this

/-- C59, radial basis function neurons respond with their maximum 1 exactly at their centroid. -/
theorem C59_rbf_peak (env : Env ℝ) (h1 : env.exp = Real.exp) (d : Nat) (x w : List ℝ) (hx : x.length = d)
    (hw : w.length = d) (b : ℝ) (hb : 0 < b) (s : String) (hs : s = "rbf_l1" ∨ s = "rbf_l2" ∨ s = "rbf_linf") (y : ℝ)
    (h : NeuronOutput env d x w b s y) : y = 1 ↔ x = w := by
  have key : ∀ v : ℝ, Real.exp (-v / b) = 1 ↔ v = 0 := by
    intro v
    rw [Real.exp_eq_one_iff, div_eq_zero_iff]
    constructor
    · rintro (h | h)
      · linarith
      · exact absurd h hb.ne'
    · rintro rfl; left; simp
  cases h with
  | lin => simp at hs
  | sigm => simp at hs
  | tanh => simp at hs
  | rbfL1 =>
    rw [h1, key, sq_eq_zero_iff]
    constructor
    · intro h0
      refine eq_of_getD hx hw fun k hk => ?_
      have := (Finset.sum_eq_zero_iff_of_nonneg fun k _ => abs_nonneg _).1 h0 k (Finset.mem_range.2 hk)
      exact sub_eq_zero.1 (abs_eq_zero.1 this)
    · rintro rfl
      exact Finset.sum_eq_zero fun k _ => by simp
  | rbfL2 =>
    rw [h1, key]
    constructor
    · intro h0
      refine eq_of_getD hx hw fun k hk => ?_
      have := (Finset.sum_eq_zero_iff_of_nonneg fun k _ => sq_nonneg _).1 h0 k (Finset.mem_range.2 hk)
      exact sub_eq_zero.1 (pow_eq_zero_iff (two_ne_zero)|>.1 this)
    · rintro rfl
      exact Finset.sum_eq_zero fun k _ => by simp
  | rbfLinf m hm =>
    rw [h1, key, sq_eq_zero_iff]
    constructor
    · rintro rfl
      refine eq_of_getD hx hw fun k hk => ?_
      have := le_antisymm (hm.1.2 k hk) (abs_nonneg _)
      exact sub_eq_zero.1 (abs_eq_zero.1 this)
    · rintro rfl
      exact le_antisymm (hm.2 ⟨le_refl _, fun k _ => by simp⟩) hm.1.1

/-- The hypotheses about the environment hold of the real one. -/
example : realEnv.exp = Real.exp ∧ realEnv.tanh = Real.tanh ∧ ∀ v : ℝ, 0 ≤ v → realEnv.sqrt v * realEnv.sqrt v = v :=
  ⟨rfl, rfl, fun _ hv => Real.mul_self_sqrt hv⟩

example : NeuronOutput realEnv 1 [1] [3] 2 "rbf_linf" (Real.exp (-(2:ℝ) ^ 2 / 2)) := by
  refine .rbfLinf 2 ⟨⟨by norm_num, ?_⟩, ?_⟩
  · intro k hk
    obtain rfl : k = 0 := by omega
    norm_num
  · intro m hm
    have := hm.2 0 (by norm_num)
    norm_num at this
    exact this

end Hpelm.Props
