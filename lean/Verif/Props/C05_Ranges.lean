import Verif.Props.C06_C08_Structure
import Mathlib.Analysis.Complex.Trigonometric
import Mathlib.Analysis.SpecialFunctions.Pow.Real

/-!
# C05 — neuron outputs stay in the range of their activation function

Over the real numbers with the real `exp`, `tanh` and square root.
-/

namespace Hpelm.Props
open Hpelm Spec

/-- The environment computes the real functions. -/
structure RealFns (env : Env ℝ) : Prop where
  exp : env.exp = Real.exp
  tanh : env.tanh = Real.tanh
  sqrt : env.sqrt = Real.sqrt

theorem sum_nonneg_zero {l : List ℝ} (h : ∀ x ∈ l, 0 ≤ x) : 0 ≤ l.sum ∧ (l.sum = 0 ↔ ∀ x ∈ l, x = 0) := by
  induction l with
  | nil => simp
  | cons a l ih =>
    obtain ⟨h1, h2⟩ := ih (fun x hx => h x (List.mem_cons_of_mem _ hx))
    have ha := h a List.mem_cons_self
    simp only [List.sum_cons, List.mem_cons, forall_eq_or_imp]
    refine ⟨by linarith, ?_⟩
    constructor
    · intro hs
      have : a = 0 := by linarith
      exact ⟨this, h2.1 (by linarith)⟩
    · rintro ⟨rfl, h3⟩
      rw [h2.2 h3]; simp

theorem zipWith_zero_iff {f : ℝ → ℝ → ℝ} (hf : ∀ a b, f a b = 0 ↔ a = b) (x w : List ℝ) (h : x.length = w.length) :
    (∀ v ∈ List.zipWith f x w, v = 0) ↔ x = w := by
  induction x generalizing w with
  | nil =>
    cases w with
    | nil => simp
    | cons b w => simp at h
  | cons a x ih =>
    cases w with
    | nil => simp at h
    | cons b w =>
      simp only [List.zipWith_cons_cons, List.mem_cons, forall_eq_or_imp, hf, ih w (by simpa using h), List.cons.injEq]

theorem distL1_spec (x w : List ℝ) (h : x.length = w.length) : 0 ≤ distL1 x w ∧ (distL1 x w = 0 ↔ x = w) := by
  unfold distL1
  have hn : ∀ v ∈ List.zipWith (fun a b => |a - b|) x w, (0 : ℝ) ≤ v := by
    intro v hv
    rw [← List.map_uncurry_zip_eq_zipWith] at hv
    obtain ⟨p, _, rfl⟩ := List.mem_map.1 hv
    exact abs_nonneg _
  obtain ⟨h1, h2⟩ := sum_nonneg_zero hn
  exact ⟨h1, h2.trans (zipWith_zero_iff (fun a b => by rw [abs_eq_zero, sub_eq_zero]) x w h)⟩

theorem distL2_spec {env : Env ℝ} (he : RealFns env) (x w : List ℝ) (h : x.length = w.length) :
    0 ≤ distL2 env x w ∧ (distL2 env x w = 0 ↔ x = w) := by
  unfold distL2
  rw [he.sqrt]
  have hn : ∀ v ∈ List.zipWith (fun a b => (a - b) * (a - b)) x w, (0 : ℝ) ≤ v := by
    intro v hv
    rw [← List.map_uncurry_zip_eq_zipWith] at hv
    obtain ⟨p, _, rfl⟩ := List.mem_map.1 hv
    exact mul_self_nonneg _
  obtain ⟨h1, h2⟩ := sum_nonneg_zero hn
  refine ⟨Real.sqrt_nonneg _, ?_⟩
  rw [Real.sqrt_eq_zero h1]
  exact h2.trans (zipWith_zero_iff (fun a b => by rw [mul_self_eq_zero, sub_eq_zero]) x w h)

theorem foldl_max_spec (l : List ℝ) (h : ∀ x ∈ l, 0 ≤ x) (m : ℝ) (hm : 0 ≤ m) :
    0 ≤ l.foldl max m ∧ (l.foldl max m = 0 ↔ m = 0 ∧ ∀ x ∈ l, x = 0) := by
  induction l generalizing m with
  | nil => simpa using hm
  | cons a l ih =>
    have ha := h a List.mem_cons_self
    obtain ⟨h1, h2⟩ := ih (fun x hx => h x (List.mem_cons_of_mem _ hx)) (max m a) (le_max_of_le_left hm)
    refine ⟨h1, ?_⟩
    rw [List.foldl_cons, h2]
    simp only [List.mem_cons, forall_eq_or_imp]
    constructor
    · rintro ⟨h3, h4⟩
      have := le_max_left m a
      have := le_max_right m a
      exact ⟨by linarith, by linarith, h4⟩
    · rintro ⟨rfl, rfl, h4⟩
      exact ⟨max_self 0, h4⟩

theorem distLinf_spec (x w : List ℝ) (h : x.length = w.length) : 0 ≤ distLinf x w ∧ (distLinf x w = 0 ↔ x = w) := by
  unfold distLinf
  have hn : ∀ v ∈ List.zipWith (fun a b => |a - b|) x w, (0 : ℝ) ≤ v := by
    intro v hv
    rw [← List.map_uncurry_zip_eq_zipWith] at hv
    obtain ⟨p, _, rfl⟩ := List.mem_map.1 hv
    exact abs_nonneg _
  obtain ⟨h1, h2⟩ := foldl_max_spec _ hn 0 le_rfl
  refine ⟨h1, ?_⟩
  rw [h2]
  simp only [true_and]
  exact zipWith_zero_iff (fun a b => by rw [abs_eq_zero, sub_eq_zero]) x w h

theorem rbf_range {d b : ℝ} (hd : 0 ≤ d) (hb : 0 < b) :
    0 < Real.exp (-d ^ 2 / b) ∧ Real.exp (-d ^ 2 / b) ≤ 1 ∧ (Real.exp (-d ^ 2 / b) = 1 ↔ d = 0) := by
  refine ⟨Real.exp_pos _, ?_, ?_⟩
  · rw [Real.exp_le_one_iff]
    apply div_nonpos_of_nonpos_of_nonneg _ hb.le
    have := sq_nonneg d
    linarith
  · rw [Real.exp_eq_one_iff, div_eq_zero_iff]
    constructor
    · rintro (h | h)
      · have : d ^ 2 = 0 := by linarith
        exact pow_eq_zero_iff (two_ne_zero) |>.1 this
      · exact absurd h hb.ne'
    · rintro rfl; simp

/-- C05.  In every hidden representation of any data by any network: the output of a sigmoid neuron lies strictly between
0 and 1, of a tanh neuron strictly between -1 and 1, and the output of a radial basis function neuron (of any of the three
distances) with positive width lies in (0, 1] and equals 1 exactly when the sample is the neuron's centroid. -/
theorem C05_ranges (env : Env ℝ) (he : RealFns env) (n : NNet ℝ) (hc : Consistent n) (X H : Mat ℝ) (hX : X.WF)
    (h : n.project env X = .ok H) (i j : Nat) (hi : i < X.nrows) (s : String) (w : List ℝ) (b : ℝ)
    (hj : (neuronList n)[j]? = some (.name s, w, b)) :
    (s = "sigm" → 0 < H.get i j ∧ H.get i j < 1) ∧
    (s = "tanh" → -1 < H.get i j ∧ H.get i j < 1) ∧
    (s = "rbf_l1" ∨ s = "rbf_l2" ∨ s = "rbf_linf" → 0 < b →
      0 < H.get i j ∧ H.get i j ≤ 1 ∧ (H.get i j = 1 ↔ X.rows.getD i [] = w)) := by
  have hlen : (X.rows.getD i []).length = w.length := by
    have h1 : X.cols = n.inputs := ((project_ok_iff _ _ _ _).1 h).1
    have h2 : (X.rows.getD i []).length = X.cols := by
      have hi' : i < X.rows.length := hi
      rw [List.getD_eq_getElem?_getD, List.getElem?_eq_getElem hi']
      exact hX _ (List.getElem_mem hi')
    have h3 : w.length = n.inputs := by
      have hm := List.mem_of_getElem? hj
      obtain ⟨g, hg, hm⟩ := List.mem_flatMap.1 hm
      obtain ⟨p, hp, he⟩ := List.mem_map.1 hm
      injection he with _ he
      injection he with he _
      rw [← he]
      exact (hc.groups g hg).2.2 p.1 (List.of_mem_zip hp).1
    rw [h2, h1, h3]
  refine ⟨?_, ?_, ?_⟩
  · rintro rfl
    rw [project_entry hc h hi hj (a := fun x w b => 1 / (1 + env.exp (dot x w + b))) rfl, he.exp]
    have := Real.exp_pos (dot (X.rows.getD i []) w + b)
    constructor
    · positivity
    · rw [div_lt_one (by positivity)]; linarith
  · rintro rfl
    rw [project_entry hc h hi hj (a := fun x w b => env.tanh (dot x w + b)) rfl, he.tanh]
    exact ⟨Real.neg_one_lt_tanh _, Real.tanh_lt_one _⟩
  · rintro (rfl | rfl | rfl) hb
    · rw [project_entry hc h hi hj (a := fun x w b => env.exp (-(distL1 x w) ^ 2 / b)) rfl, he.exp]
      obtain ⟨d1, d2⟩ := distL1_spec _ _ hlen
      obtain ⟨r1, r2, r3⟩ := rbf_range d1 hb
      exact ⟨r1, r2, r3.trans d2⟩
    · rw [project_entry hc h hi hj (a := fun x w b => env.exp (-(distL2 env x w) ^ 2 / b)) rfl, he.exp]
      obtain ⟨d1, d2⟩ := distL2_spec he _ _ hlen
      obtain ⟨r1, r2, r3⟩ := rbf_range d1 hb
      exact ⟨r1, r2, r3.trans d2⟩
    · rw [project_entry hc h hi hj (a := fun x w b => env.exp (-(distLinf x w) ^ 2 / b)) rfl, he.exp]
      obtain ⟨d1, d2⟩ := distLinf_spec _ _ hlen
      obtain ⟨r1, r2, r3⟩ := rbf_range d1 hb
      exact ⟨r1, r2, r3.trans d2⟩

/-- A network with a sigmoid, a tanh and an rbf neuron (width 2) meets the hypotheses on every 1-column data set. -/
example (env : Env ℝ) (X : Mat ℝ) (hX : X.cols = 1) :
    let n := (((NNet.init env .python 1 1 none .double).addNeurons 1 (.name "sigm") [[3]] [1]).addNeurons 1 (.name "tanh")
      [[1]] [0]).addNeurons 1 (.name "rbf_l2") [[5]] [2]
    Consistent n ∧ (∃ H, n.project env X = .ok H) ∧ (neuronList n)[0]? = some (.name "sigm", [3], 1) ∧
      (neuronList n)[1]? = some (.name "tanh", [1], 0) ∧ (neuronList n)[2]? = some (.name "rbf_l2", [5], 2) := by
  intro n
  have hc : Consistent n := by
    refine addNeurons_consistent (addNeurons_consistent (addNeurons_consistent (init_consistent _ _ _ _ _ _) ?_ ?_ ?_) ?_ ?_ ?_)
      ?_ ?_ ?_ <;> simp [NNet.init, NNet.addNeurons, NNet.reset]
  refine ⟨hc, ⟨_, project_isOk env n X hc hX ?_ ?_⟩, rfl, rfl, rfl⟩
  · apply named_act
    intro g hg
    have : g ∈ [(⟨1, .name "sigm", [[3]], [1]⟩ : Group ℝ), ⟨1, .name "tanh", [[1]], [0]⟩, ⟨1, .name "rbf_l2", [[5]], [2]⟩] := hg
    simp only [List.mem_cons, List.not_mem_nil, or_false] at this
    rcases this with rfl | rfl | rfl
    · exact ⟨"sigm", by decide, rfl⟩
    · exact ⟨"tanh", by decide, rfl⟩
    · exact ⟨"rbf_l2", by decide, rfl⟩
  · intro hn
    have : n.neurons.length = 3 := rfl
    rw [hn] at this
    cases this

end Hpelm.Props
