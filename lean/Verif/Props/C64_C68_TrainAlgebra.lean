import Verif.Lemmas.Training

/-!
# C64-C68 How the trained model depends on targets, neurons, regularisation and sample weights
-/

set_option linter.unusedSectionVars false

namespace Hpelm.Props
open Hpelm Spec Finset
variable {K : Type} [Field K] [LinearOrder K] [IsStrictOrderedRing K]

/-! ## C64 targets enter linearly, outputs are independent -/

/-- C64 (superposition).  Three models with the same neurons and regularisation (any solvers, batch sizes, numbers of outputs) are
trained on the same inputs, not in weighted classification.  If a target column of the third is a linear combination of target
columns of the first two, then the same holds for the predictions, for all new inputs. -/
theorem C64_superposition (env : Env K) (hl : Lawful env) (hx : env.Exact) (e₁ e₁' e₂ e₂' e₃ e₃' : ELM K) (X T₁ T₂ T₃ : Mat K)
    (args₁ args₂ args₃ : List String) (kw₁ kw₂ kw₃ : Kwargs K)
    (h₁ : PlainTrain env e₁ X T₁ args₁ kw₁ e₁') (h₂ : PlainTrain env e₂ X T₂ args₂ kw₂ e₂') (h₃ : PlainTrain env e₃ X T₃ args₃ kw₃ e₃')
    (c₁ : e₁'.classification ≠ some "wc") (c₂ : e₂'.classification ≠ some "wc") (c₃ : e₃'.classification ≠ some "wc")
    (n₁ : neuronList e₁.nnet = neuronList e₃.nnet) (n₂ : neuronList e₂.nnet = neuronList e₃.nnet)
    (r₁ : e₁.nnet.norm = e₃.nnet.norm) (r₂ : e₂.nnet.norm = e₃.nnet.norm)
    (a b : K) (j₁ j₂ j₃ : Nat) (hj₁ : j₁ < T₁.cols) (hj₂ : j₂ < T₂.cols) (hj₃ : j₃ < T₃.cols)
    (hT : ∀ s < X.nrows, T₃.get s j₃ = a * T₁.get s j₁ + b * T₂.get s j₂)
    (Xn P₁ P₂ P₃ : Mat K) (p₁ : Predicts env e₁' Xn P₁) (p₂ : Predicts env e₂' Xn P₂) (p₃ : Predicts env e₃' Xn P₃) :
    ∀ s < Xn.nrows, P₃.get s j₃ = a * P₁.get s j₁ + b * P₂.get s j₂ := by
  obtain ⟨H₁, B₁, w₁, t₁⟩ := h₁.trained hl hx
  obtain ⟨H₂, B₂, w₂, t₂⟩ := h₂.trained hl hx
  obtain ⟨H, B₃, w₃, t₃⟩ := h₃.trained hl hx
  obtain rfl := project_eq_of_neurons h₁.consistent h₃.consistent t₁.proj t₃.proj n₁
  obtain rfl := project_eq_of_neurons h₂.consistent h₃.consistent t₂.proj t₃.proj n₂
  have hz : ∀ k < H₂.cols, B₃.get k j₃ - a * B₁.get k j₁ - b * B₂.get k j₂ = 0 := by
    apply homog_zero (n := X.nrows) (h := H₂.get) (w := fun _ => 1) h₃.norm (fun _ _ => zero_le_one)
    intro k hk
    have q₁ := t₁.normal k hk j₁ hj₁
    have q₂ := t₂.normal k hk j₂ hj₂
    have q₃ := t₃.normal k hk j₃ hj₃
    rw [← t₁.rowsX, r₁] at q₁
    rw [← t₂.rowsX, r₂] at q₂
    rw [← t₃.rowsX] at q₃
    have hone : ∀ {e' : ELM K} {T : Mat K} {w : Nat → K} (f : Nat → K), SampleWeights e'.classification e'.wc T w →
        e'.classification ≠ some "wc" → X.nrows = T.nrows →
        ∑ s ∈ range X.nrows, w s * H₂.get s k * f s = ∑ s ∈ range X.nrows, H₂.get s k * f s := by
      intro e' T w f hw hc hn
      apply Finset.sum_congr rfl
      intro s hs
      rw [(hw s (by rw [← hn]; exact Finset.mem_range.1 hs)).1 hc, one_mul]
    rw [hone _ t₁.sw c₁ t₁.rowsX, hone _ t₁.sw c₁ t₁.rowsX] at q₁
    rw [hone _ t₂.sw c₂ t₂.rowsX, hone _ t₂.sw c₂ t₂.rowsX] at q₂
    rw [hone _ t₃.sw c₃ t₃.rowsX, hone _ t₃.sw c₃ t₃.rowsX] at q₃
    have hs : ∑ s ∈ range X.nrows, H₂.get s k * T₃.get s j₃ =
        a * ∑ s ∈ range X.nrows, H₂.get s k * T₁.get s j₁ + b * ∑ s ∈ range X.nrows, H₂.get s k * T₂.get s j₂ := by
      rw [Finset.mul_sum, Finset.mul_sum, ← Finset.sum_add_distrib]
      apply Finset.sum_congr rfl
      intro s hs
      rw [hT s (Finset.mem_range.1 hs)]
      ring
    have hp : ∑ s ∈ range X.nrows, 1 * H₂.get s k * ∑ l ∈ range H₂.cols, H₂.get s l * (B₃.get l j₃ - a * B₁.get l j₁ - b * B₂.get l j₂) =
        ∑ s ∈ range X.nrows, H₂.get s k * predEntry H₂ B₃ s j₃ - a * ∑ s ∈ range X.nrows, H₂.get s k * predEntry H₂ B₁ s j₁ -
          b * ∑ s ∈ range X.nrows, H₂.get s k * predEntry H₂ B₂ s j₂ := by
      rw [Finset.mul_sum, Finset.mul_sum, ← Finset.sum_sub_distrib, ← Finset.sum_sub_distrib]
      apply Finset.sum_congr rfl
      intro s _
      have : ∑ l ∈ range H₂.cols, H₂.get s l * (B₃.get l j₃ - a * B₁.get l j₁ - b * B₂.get l j₂) =
          predEntry H₂ B₃ s j₃ - a * predEntry H₂ B₁ s j₁ - b * predEntry H₂ B₂ s j₂ := by
        unfold predEntry
        rw [Finset.mul_sum, Finset.mul_sum, ← Finset.sum_sub_distrib, ← Finset.sum_sub_distrib]
        exact Finset.sum_congr rfl fun l _ => by ring
      rw [this]
      ring
    rw [hp]
    linear_combination q₃ - a * q₁ - b * q₂ + hs
  obtain ⟨G₁, g₁, e₁, d₁, m₁⟩ := t₁.pred Xn P₁ p₁
  obtain ⟨G₂, g₂, e₂, d₂, m₂⟩ := t₂.pred Xn P₂ p₂
  obtain ⟨G, g₃, e₃, d₃, m₃⟩ := t₃.pred Xn P₃ p₃
  obtain rfl := project_eq_of_neurons h₁.consistent h₃.consistent g₁ g₃ n₁
  obtain rfl := project_eq_of_neurons h₂.consistent h₃.consistent g₂ g₃ n₂
  intro s hs
  rw [t₁.predGet (Xn := Xn) e₁ d₁ s (by omega) j₁ hj₁, t₂.predGet (Xn := Xn) e₂ d₂ s (by omega) j₂ hj₂,
    t₃.predGet (Xn := Xn) e₃ d₃ s (by omega) j₃ hj₃]
  unfold predEntry
  rw [Finset.mul_sum, Finset.mul_sum, ← Finset.sum_add_distrib]
  apply Finset.sum_congr rfl
  intro k hk
  have := hz k (by rw [← d₃]; exact Finset.mem_range.1 hk)
  linear_combination G₂.get s k * this

/-- C64 (independence).  What a model predicts for one output depends only on the targets of that output: not on the number, order or
values of the other outputs, nor on solver, precision or batch size. -/
theorem C64_outputs_independent (env : Env K) (hl : Lawful env) (hx : env.Exact) (e e' f f' : ELM K) (X T U : Mat K)
    (args argsf : List String) (kw kwf : Kwargs K) (h : PlainTrain env e X T args kw e') (hf : PlainTrain env f X U argsf kwf f')
    (c : e'.classification ≠ some "wc") (cf : f'.classification ≠ some "wc")
    (hn : neuronList e.nnet = neuronList f.nnet) (hr : e.nnet.norm = f.nnet.norm)
    (i j : Nat) (hi : i < T.cols) (hj : j < U.cols) (hT : ∀ s < X.nrows, T.get s i = U.get s j)
    (Xn P Q : Mat K) (p : Predicts env e' Xn P) (q : Predicts env f' Xn Q) : ∀ s < Xn.nrows, P.get s i = Q.get s j := by
  intro s hs
  have := C64_superposition env hl hx f f' f f' e e' X U U T argsf argsf args kwf kwf kw hf hf h cf cf c hn.symm hn.symm hr.symm hr.symm
    1 0 j j i hj hj hi (by intro s hs; rw [hT s hs]; ring) Xn Q Q P q q p s hs
  rw [this]; ring

/-! ## C65 the order of neurons is irrelevant -/

/-- Two trained networks with the same neurons, in any order, and the same sample weights. -/
theorem trained_order {env : Env K} {e e' f f' : ELM K} {X T H B H' B' : Mat K} {w w' : Nat → K} (t : Trained env e X T e' H B w)
    (t' : Trained env f X T f' H' B' w') (hce : Consistent e.nnet) (hcf : Consistent f.nnet) (hnorm : 0 < e.nnet.norm)
    (hww : ∀ s < T.nrows, w' s = w s) (hn : (neuronList e.nnet).Perm (neuronList f.nnet)) (hr : e.nnet.norm = f.nnet.norm)
    (Xn P Q : Mat K) (p : Predicts env e' Xn P) (q : Predicts env f' Xn Q) : P = Q := by
  obtain ⟨idx, i1, i2, i3⟩ := subperm_positions hn.subperm
  have hL : H.cols = H'.cols := by
    rw [t.colsH, t'.colsH, size_neuronList hce, size_neuronList hcf, hn.length_eq]
  have hlen : idx.length = H.cols := by rw [i2, ← size_neuronList hce, t.colsH]
  have hperm : idx.Perm (List.range H'.cols) := by
    have : (neuronList f.nnet).length = H'.cols := by rw [t'.colsH, size_neuronList hcf]
    rw [this] at i1
    exact i1.perm_of_length_le (by simp [hlen, hL])
  have hre : ∀ g : Nat → K, ∑ k ∈ range H.cols, g (idx.getD k 0) = ∑ k ∈ range H'.cols, g k := by
    intro g
    rw [← hlen, sum_positions, ← sum_range_list]
    exact (hperm.map g).sum_eq
  have hget : ∀ {Y G G' : Mat K}, e.nnet.project env Y = .ok G → f.nnet.project env Y = .ok G' → ∀ s, ∀ k < H.cols,
      G.get s k = G'.get s (idx.getD k 0) := by
    intro Y G G' g g' s k hk
    exact project_get_eq hce hcf g g' (i3 k (by rw [← i2, hlen]; exact hk)).1 s
  have hlt : ∀ k < H.cols, idx.getD k 0 < H'.cols := by
    intro k hk
    have := (i3 k (by rw [← i2, hlen]; exact hk)).2
    rw [← size_neuronList hcf, ← t'.colsH] at this
    exact this
  have hz : ∀ j < T.cols, ∀ k < H.cols, B.get k j - B'.get (idx.getD k 0) j = 0 := by
    intro j hj
    apply homog_zero (n := T.nrows) (h := H.get) (w := w) hnorm t.nonneg
    intro k hk
    have q1 := t.normal k hk j hj
    have q2 := t'.normal (idx.getD k 0) (hlt k hk) j hj
    rw [← hr] at q2
    have e1 : ∀ s, predEntry H' B' s j = ∑ l ∈ range H.cols, H.get s l * B'.get (idx.getD l 0) j := by
      intro s
      unfold predEntry
      rw [← hre fun k => H'.get s k * B'.get k j]
      apply Finset.sum_congr rfl
      intro l hl
      rw [hget t.proj t'.proj s l (Finset.mem_range.1 hl)]
    have e2 : ∀ g : Nat → K, ∑ s ∈ range T.nrows, w' s * H'.get s (idx.getD k 0) * g s = ∑ s ∈ range T.nrows, w s * H.get s k * g s := by
      intro g
      apply Finset.sum_congr rfl
      intro s hs
      rw [hww s (Finset.mem_range.1 hs), hget t.proj t'.proj s k hk]
    rw [e2, e2] at q2
    have e3 : ∀ s, ∑ l ∈ range H.cols, H.get s l * (B.get l j - B'.get (idx.getD l 0) j) = predEntry H B s j - predEntry H' B' s j := by
      intro s
      rw [e1]
      unfold predEntry
      rw [← Finset.sum_sub_distrib]
      exact Finset.sum_congr rfl fun l _ => by ring
    simp only [e3]
    simp only [mul_sub, Finset.sum_sub_distrib]
    linear_combination q1 - q2
  obtain ⟨G, g, eP, d, m⟩ := t.pred Xn P p
  obtain ⟨G', g', eQ, d', m'⟩ := t'.pred Xn Q q
  have n1 : P.nrows = Xn.nrows := by rw [eP, Mat.mul_nrows, m]
  have n2 : Q.nrows = Xn.nrows := by rw [eQ, Mat.mul_nrows, m']
  have k1 : P.cols = T.cols := by rw [eP]; exact t.cols
  have k2 : Q.cols = T.cols := by rw [eQ]; exact t'.cols
  apply Mat.ext_get (by rw [eP]; exact Mat.mul_WF _ _) (by rw [eQ]; exact Mat.mul_WF _ _) (by rw [n1, n2]) (by rw [k1, k2])
  intro s j hs hj
  rw [n1] at hs
  rw [k1] at hj
  rw [t.predGet (Xn := Xn) eP d s (by omega) j hj, t'.predGet (Xn := Xn) eQ d' s (by omega) j hj]
  unfold predEntry
  rw [d', ← hre fun k => G'.get s k * B'.get k j, d]
  apply Finset.sum_congr rfl
  intro k hk
  rw [hget g g' s k (Finset.mem_range.1 hk)]
  have := hz j hj k (Finset.mem_range.1 hk)
  linear_combination G'.get s (idx.getD k 0) * this

/-- C65.  Two models with the same neurons in any order (and any solver, precision, batch size) trained on the same data with the same
kind of training give the same predictions. -/
theorem C65_neuron_order (env : Env K) (hl : Lawful env) (hx : env.Exact) (e e' f f' : ELM K) (X T : Mat K)
    (args argsf : List String) (kw kwf : Kwargs K) (h : PlainTrain env e X T args kw e') (hf : PlainTrain env f X T argsf kwf f')
    (hc : e'.classification = f'.classification) (hw : e'.wc = f'.wc)
    (hn : (neuronList e.nnet).Perm (neuronList f.nnet)) (hr : e.nnet.norm = f.nnet.norm)
    (Xn P Q : Mat K) (p : Predicts env e' Xn P) (q : Predicts env f' Xn Q) : P = Q := by
  obtain ⟨H, B, w, t⟩ := h.trained hl hx
  obtain ⟨H', B', w', t'⟩ := hf.trained hl hx
  exact trained_order t t' h.consistent hf.consistent h.norm (sampleWeights_unique (hc ▸ hw ▸ t'.sw) t.sw) hn hr Xn P Q p q

theorem fitError_congr {w w' : Nat → K} {P T : Mat K} (h : ∀ s < T.nrows, w s = w' s) : fitError w P T = fitError w' P T := by
  unfold fitError
  exact Finset.sum_congr rfl fun s hs => by rw [h s (Finset.mem_range.1 hs)]

/-! ## C66 more neurons never fit worse -/

theorem ridgeLoss_fit {env : Env K} {e e' : ELM K} {X T H B : Mat K} {w : Nat → K} (t : Trained env e X T e' H B w) {P : Mat K}
    (p : Predicts env e' X P) : ridgeLoss H T w e.nnet.norm B = fitError w P T + e.nnet.norm * sqNorm B := by
  obtain ⟨G, g, eP, d, m⟩ := t.pred X P p
  have : G = H := by
    have := t.proj
    rw [g] at this
    injection this
  subst this
  unfold ridgeLoss fitError sqNorm
  rw [t.rows, t.cols]
  congr 1
  apply Finset.sum_congr rfl
  intro s hs
  congr 1
  apply Finset.sum_congr rfl
  intro j hj
  rw [t.predGet (Xn := X) eP d s (by rw [t.rowsH]; exact Finset.mem_range.1 hs) j (Finset.mem_range.1 hj)]

/-- C66.  If all neurons of one model also occur (with multiplicity, in any order) in another one with the same regularisation, and
both are trained on the same data with the same kind of training, then the model with more neurons has at most the penalised training
error of the smaller one. -/
theorem C66_more_neurons (env : Env K) (hl : Lawful env) (hx : env.Exact) (e e' f f' : ELM K) (X T : Mat K)
    (args argsf : List String) (kw kwf : Kwargs K) (h : PlainTrain env e X T args kw e') (hf : PlainTrain env f X T argsf kwf f')
    (hc : e'.classification = f'.classification) (hw : e'.wc = f'.wc)
    (hn : (neuronList e.nnet).Subperm (neuronList f.nnet)) (hr : e.nnet.norm = f.nnet.norm)
    (P Q B C : Mat K) (p : Predicts env e' X P) (q : Predicts env f' X Q) (hB : e'.nnet.getB = some B) (hC : f'.nnet.getB = some C)
    (w₀ : Nat → K) (hw₀ : SampleWeights e'.classification e'.wc T w₀) :
    fitError w₀ Q T + f.nnet.norm * sqNorm C ≤ fitError w₀ P T + e.nnet.norm * sqNorm B := by
  obtain ⟨H, B0, w, t⟩ := h.trained hl hx
  obtain ⟨H', C0, w', t'⟩ := hf.trained hl hx
  obtain rfl : B = B0 := by have := t.getB; rw [hB] at this; injection this
  obtain rfl : C = C0 := by have := t'.getB; rw [hC] at this; injection this
  rw [fitError_congr (sampleWeights_unique hw₀ t.sw), fitError_congr (sampleWeights_unique hw₀ t.sw)]
  have hww : ∀ s < T.nrows, w' s = w s := sampleWeights_unique (hc ▸ hw ▸ t'.sw) (t.sw)
  have e1 : fitError w Q T = fitError w' Q T := by
    unfold fitError
    exact Finset.sum_congr rfl fun s hs => by rw [hww s (Finset.mem_range.1 hs)]
  rw [e1, ← ridgeLoss_fit t p, ← ridgeLoss_fit t' q]
  obtain ⟨idx, i1, i2, i3⟩ := subperm_positions hn
  have hlen : idx.length = H.cols := by rw [i2, ← size_neuronList h.consistent, t.colsH]
  have hnd : idx.Nodup := by
    obtain ⟨l, l1, l2⟩ := i1
    exact l1.nodup_iff.1 (l2.nodup List.nodup_range)
  have hlt : ∀ k < H.cols, idx.getD k 0 < H'.cols := by
    intro k hk
    have := (i3 k (by rw [← i2, hlen]; exact hk)).2
    rw [← size_neuronList hf.consistent, ← t'.colsH] at this
    exact this
  have hmem : ∀ i ∈ idx, i < H'.cols := by
    intro i hi
    obtain ⟨k, hk, rfl⟩ := List.mem_iff_getElem.1 hi
    have := hlt k (by rw [← hlen]; exact hk)
    rwa [List.getD_eq_getElem?_getD, List.getElem?_eq_getElem hk] at this
  let D : Mat K := Mat.ofFn H'.cols T.cols fun i j => if i ∈ idx then B.get (idx.idxOf i) j else 0
  have hD : ∀ i < H'.cols, ∀ j < T.cols, D.get i j = if i ∈ idx then B.get (idx.idxOf i) j else 0 :=
    fun i hi j hj => Mat.get_ofFn_lt hi hj
  have hsum : ∀ g : Nat → K, (∀ i, i ∉ idx → g i = 0) → ∑ i ∈ range H'.cols, g i = ∑ k ∈ range H.cols, g (idx.getD k 0) := by
    intro g hg
    rw [← hlen, sum_positions, ← List.sum_toFinset _ hnd]
    symm
    apply Finset.sum_subset
    · intro i hi
      exact Finset.mem_range.2 (hmem i (List.mem_toFinset.1 hi))
    · intro i _ hi
      exact hg i (fun h => hi (List.mem_toFinset.2 h))
  have hDk : ∀ k < H.cols, ∀ j < T.cols, D.get (idx.getD k 0) j = B.get k j := by
    intro k hk j hj
    have hk' : k < idx.length := by rw [hlen]; exact hk
    rw [hD _ (hlt k hk) j hj, List.getD_eq_getElem?_getD, List.getElem?_eq_getElem hk']
    simp only [Option.getD_some, List.getElem_mem, if_true]
    rw [hnd.idxOf_getElem]
  have hDz : ∀ i, i ∉ idx → i < H'.cols → ∀ j < T.cols, D.get i j = 0 := by
    intro i hi hi' j hj
    rw [hD i hi' j hj, if_neg hi]
  have hDz' : ∀ i, i ∉ idx → ∀ j, D.get i j = 0 := by
    intro i hi j
    by_cases hi' : i < H'.cols
    · by_cases hj : j < T.cols
      · exact hDz i hi hi' j hj
      · exact Mat.get_ge_cols _ (Mat.ofFn_WF _ _ _) (by simpa [D] using hj)
    · exact Mat.get_ge_rows _ (by simpa [D] using hi')
  have hb := t'.best D (Mat.ofFn_WF _ _ _) (by simp [D]) (by simp [D])
  refine le_trans hb (le_of_eq ?_)
  unfold ridgeLoss
  rw [hr]
  congr 1
  · apply Finset.sum_congr rfl
    intro s hs
    rw [hww s (Finset.mem_range.1 hs)]
    congr 1
    apply Finset.sum_congr rfl
    intro j hj
    have : predEntry H' D s j = predEntry H B s j := by
      unfold predEntry
      rw [hsum (fun i => H'.get s i * D.get i j) (fun i hi => by rw [hDz' i hi, mul_zero])]
      apply Finset.sum_congr rfl
      intro k hk
      have hk' := Finset.mem_range.1 hk
      rw [hDk k hk' j (Finset.mem_range.1 hj),
        project_get_eq h.consistent hf.consistent t.proj t'.proj (i3 k (by rw [← i2, hlen]; exact hk')).1 s]
    rw [this]
  · congr 1
    rw [hsum (fun i => ∑ j ∈ range T.cols, D.get i j ^ 2) (fun i hi => Finset.sum_eq_zero fun j _ => by rw [hDz' i hi]; ring)]
    apply Finset.sum_congr rfl
    intro k hk
    apply Finset.sum_congr rfl
    intro j hj
    rw [hDk k (Finset.mem_range.1 hk) j (Finset.mem_range.1 hj)]

/-! ## C67 stronger regularisation -/

/-- Squared size, with the bounds taken from the data. -/
def sqNorm' (H T B : Mat K) : K := ∑ k ∈ range H.cols, ∑ j ∈ range T.cols, B.get k j ^ 2

/-- C67.  Two models with the same neurons trained on the same data with the same kind of training, the second with a larger
regularisation parameter: the output weights of the second are not larger, and its training error is not smaller. -/
theorem C67_regularization (env : Env K) (hl : Lawful env) (hx : env.Exact) (e e' f f' : ELM K) (X T : Mat K)
    (args argsf : List String) (kw kwf : Kwargs K) (h : PlainTrain env e X T args kw e') (hf : PlainTrain env f X T argsf kwf f')
    (hc : e'.classification = f'.classification) (hw : e'.wc = f'.wc)
    (hn : neuronList e.nnet = neuronList f.nnet) (hr : e.nnet.norm < f.nnet.norm)
    (P Q B C : Mat K) (p : Predicts env e' X P) (q : Predicts env f' X Q) (hB : e'.nnet.getB = some B) (hC : f'.nnet.getB = some C)
    (w₀ : Nat → K) (hw₀ : SampleWeights e'.classification e'.wc T w₀) : sqNorm C ≤ sqNorm B ∧ fitError w₀ P T ≤ fitError w₀ Q T := by
  obtain ⟨H, B0, w, t⟩ := h.trained hl hx
  obtain ⟨H', C0, w', t'⟩ := hf.trained hl hx
  obtain rfl : B = B0 := by have := t.getB; rw [hB] at this; injection this
  obtain rfl : C = C0 := by have := t'.getB; rw [hC] at this; injection this
  obtain rfl := project_eq_of_neurons h.consistent hf.consistent t.proj t'.proj hn
  rw [fitError_congr (sampleWeights_unique hw₀ t.sw), fitError_congr (sampleWeights_unique hw₀ t.sw)]
  have hww : ∀ s < T.nrows, w' s = w s := sampleWeights_unique (hc ▸ hw ▸ t'.sw) (t.sw)
  have e1 : fitError w' Q T = fitError w Q T := by
    unfold fitError
    exact Finset.sum_congr rfl fun s hs => by rw [hww s (Finset.mem_range.1 hs)]
  have a1 := t.best C t'.wf t'.rows t'.cols
  have a2 := t'.best B t.wf t.rows t.cols
  have s1 : ∀ (lam lam' : K) (D : Mat K), ridgeLoss H T w lam D - lam * sqNorm' H T D = ridgeLoss H T w lam' D - lam' * sqNorm' H T D := by
    intro lam lam' D
    unfold ridgeLoss sqNorm'
    ring
  have l1 := ridgeLoss_fit t p
  have l2 := ridgeLoss_fit t' q
  rw [e1] at l2
  have n1 : sqNorm B = sqNorm' H T B := by unfold sqNorm sqNorm'; rw [t.rows, t.cols]
  have n2 : sqNorm C = sqNorm' H T C := by unfold sqNorm sqNorm'; rw [t'.rows, t'.cols]
  rw [n1] at l1 ⊢
  rw [n2] at l2 ⊢
  rw [ridgeLoss_congr hww] at a2 l2
  rw [ridgeLoss_congr (B := B) hww] at a2
  have m1 := s1 e.nnet.norm f.nnet.norm C
  have m2 := s1 e.nnet.norm f.nnet.norm B
  have hle : sqNorm' H T C ≤ sqNorm' H T B := by
    have : (f.nnet.norm - e.nnet.norm) * (sqNorm' H T C - sqNorm' H T B) ≤ 0 := by nlinarith
    by_contra hlt
    have := mul_pos (sub_pos.2 hr) (sub_pos.2 (not_le.1 hlt))
    linarith
  refine ⟨hle, ?_⟩
  have := mul_le_mul_of_nonneg_left hle h.norm.le
  linarith

/-! ## C68 sample weights mean repetition -/

/-- Sum over two repeated lists. -/
theorem sum_repeat {α β : Type} (F : α → β → K) (m : List Nat) (A : List α) (B : List β) (hA : A.length = m.length) (hB : B.length = m.length) :
    ((((A.zip m).flatMap fun p => List.replicate p.2 p.1).zip ((B.zip m).flatMap fun p => List.replicate p.2 p.1)).map fun p => F p.1 p.2).sum =
      (((A.zip B).zip m).map fun p => (p.2 : K) * F p.1.1 p.1.2).sum := by
  induction m generalizing A B with
  | nil =>
    rw [List.length_eq_zero_iff.1 hA]
    simp
  | cons k m ih =>
    cases A with
    | nil => cases hA
    | cons a A =>
      cases B with
      | nil => cases hB
      | cons b B =>
        simp only [List.zip_cons_cons, List.flatMap_cons, List.map_cons, List.sum_cons]
        rw [List.zip_append (by simp), List.map_append, List.sum_append, ih A B (by simpa using hA) (by simpa using hB)]
        congr 1
        rw [List.zip_replicate' ]
        simp

theorem sum_zip_range {α β : Type} (F : α → β → K) (a0 : α) (b0 : β) (A : List α) (B : List β) (h : A.length = B.length) :
    ∑ s ∈ range A.length, F (A.getD s a0) (B.getD s b0) = ((A.zip B).map fun p => F p.1 p.2).sum := by
  induction A generalizing B with
  | nil => simp
  | cons a A ih =>
    cases B with
    | nil => cases h
    | cons b B =>
      rw [List.length_cons, Finset.sum_range_succ', List.zip_cons_cons, List.map_cons, List.sum_cons, ← ih B (by simpa using h), add_comm]
      rfl

/-- Sum over the rows of two matrices with repeated rows. -/
theorem sum_repeatRows (F : List K → List K → K) (m : List Nat) (A B : Mat K) (hA : A.nrows = m.length) (hB : B.nrows = m.length) :
    ∑ s ∈ range (repeatRows m B).nrows, F ((repeatRows m A).rows.getD s []) ((repeatRows m B).rows.getD s []) =
      ∑ s ∈ range B.nrows, (m.getD s 0 : K) * F (A.rows.getD s []) (B.rows.getD s []) := by
  have hlen : (repeatRows m A).rows.length = (repeatRows m B).rows.length := by
    unfold repeatRows
    simp only [List.length_flatMap, List.length_replicate]
    have h1 : (A.rows.zip m).map (fun p => p.2) = m := by
      rw [← List.unzip_snd, List.unzip_zip_right (by rw [Mat.nrows] at hA; omega)]
    have h2 : (B.rows.zip m).map (fun p => p.2) = m := by
      rw [← List.unzip_snd, List.unzip_zip_right (by rw [Mat.nrows] at hB; omega)]
    rw [h1, h2]
  have e1 : (repeatRows m B).nrows = (repeatRows m A).rows.length := hlen.symm
  rw [e1, sum_zip_range F [] [] _ _ hlen]
  have := sum_repeat F m A.rows B.rows hA hB
  unfold repeatRows
  rw [this]
  have hz : (A.rows.zip B.rows).length = m.length := by
    rw [List.length_zip]; simp only [Mat.nrows] at hA hB; omega
  rw [← sum_zip_range (fun (p : List K × List K) (k : Nat) => (k : K) * F p.1 p.2) ([], []) 0 _ _ hz]
  have hB' : B.nrows = (A.rows.zip B.rows).length := by rw [hz, hB]
  rw [hB']
  apply Finset.sum_congr rfl
  intro s hs
  have hs' := Finset.mem_range.1 hs
  have hs1 : s < A.rows.length := by rw [hz, ← hA] at hs'; exact hs'
  have hs2 : s < B.rows.length := by rw [hz, ← hB] at hs'; exact hs'
  simp [hs1, hs2]

/-- C68.  Sample weights mean repetition: if sample `s` has the weight `m s`, a natural number, in (weighted) training, then the model
predicts exactly what it would predict after unweighted training on the data in which sample `s` is repeated `m s` times. -/
theorem C68_weights_repeat (env : Env K) (hl : Lawful env) (hx : env.Exact) (e e' f f' : ELM K) (X T : Mat K) (m : List Nat)
    (args argsf : List String) (kw kwf : Kwargs K) (hm : m.length = T.nrows)
    (h : PlainTrain env e X T args kw e') (hf : PlainTrain env f (repeatRows m X) (repeatRows m T) argsf kwf f')
    (hw : SampleWeights e'.classification e'.wc T fun s => (m.getD s 0 : K)) (hc : f'.classification ≠ some "wc")
    (hn : neuronList e.nnet = neuronList f.nnet) (hr : e.nnet.norm = f.nnet.norm)
    (Xn P Q : Mat K) (p : Predicts env e' Xn P) (q : Predicts env f' Xn Q) : P = Q := by
  obtain ⟨H, B, w, t⟩ := h.trained hl hx
  obtain ⟨H', C, w', t'⟩ := hf.trained hl hx
  have hH : H' = repeatRows m H := by
    rw [project_ok_spec hf.consistent t'.proj, project_ok_spec h.consistent t.proj, hn]
    unfold repeatRows
    congr 1
    · rw [size_neuronList hf.consistent, size_neuronList h.consistent, hn]
    · simp only [List.map_flatMap, List.map_replicate, List.zip_map_left, List.flatMap_map]
      rfl
  have hcols : H'.cols = H.cols := by rw [hH]; rfl
  have hN : NormalEq H T (fun s => (m.getD s 0 : K)) e.nnet.norm C := by
    intro k hk j hj
    have := t'.normal k (by rw [hcols]; exact hk) j hj
    rw [← hr] at this
    have e1 : ∑ s ∈ range (repeatRows m T).nrows, w' s * H'.get s k * predEntry H' C s j =
        ∑ s ∈ range T.nrows, (m.getD s 0 : K) * H.get s k * predEntry H C s j := by
      rw [hH]
      have := sum_repeatRows (fun r _ => r.getD k 0 * ∑ l ∈ range H.cols, r.getD l 0 * C.get l j) m H T (by rw [t.rowsH, hm]) hm.symm
      simp only [← mul_assoc] at this
      refine Eq.trans ?_ this
      apply Finset.sum_congr rfl
      intro s hs
      rw [(t'.sw s (Finset.mem_range.1 hs)).1 hc, one_mul]
      rfl
    have e2 : ∑ s ∈ range (repeatRows m T).nrows, w' s * H'.get s k * (repeatRows m T).get s j =
        ∑ s ∈ range T.nrows, (m.getD s 0 : K) * H.get s k * T.get s j := by
      rw [hH]
      have := sum_repeatRows (fun r u => r.getD k 0 * u.getD j 0) m H T (by rw [t.rowsH, hm]) hm.symm
      simp only [← mul_assoc] at this
      refine Eq.trans ?_ this
      apply Finset.sum_congr rfl
      intro s hs
      rw [(t'.sw s (Finset.mem_range.1 hs)).1 hc, one_mul]
      rfl
    rw [e1, e2] at this
    exact this
  have hww : ∀ s < T.nrows, w s = m.getD s 0 := sampleWeights_unique t.sw hw
  have hN' : NormalEq H T w e.nnet.norm C := by
    intro k hk j hj
    have := hN k hk j hj
    have e1 : ∀ g : Nat → K, ∑ s ∈ range T.nrows, w s * H.get s k * g s = ∑ s ∈ range T.nrows, (m.getD s 0 : K) * H.get s k * g s :=
      fun g => Finset.sum_congr rfl fun s hs => by rw [hww s (Finset.mem_range.1 hs)]
    rw [e1, e1]; exact this
  have hBC : C = B := normalEq_unique h.norm t.nonneg t.wf t.rows t.cols t.normal C t'.wf (by rw [t'.rows, hcols]) (by rw [t'.cols]; rfl) hN'
  obtain ⟨G, g, eP, d, m⟩ := t.pred Xn P p
  obtain ⟨G', g', eQ, d', m'⟩ := t'.pred Xn Q q
  obtain rfl := project_eq_of_neurons h.consistent hf.consistent g g' hn
  rw [eP, eQ, hBC]

/-! ## The hypotheses can be met -/

/-- A network of linear neurons over the reals. -/
noncomputable def linModel (s : Solver) (outputs : Nat) (norm : ℝ) (W : List (List ℝ)) : ELM ℝ :=
  { nnet := { solver := s, prec := .double, inputs := 2, outputs := outputs, norm := norm,
              neurons := [⟨W.length, .name "lin", W, W.map fun _ => 0⟩], L := some W.length, B := none, corr := none }
    batch := 2, prec := .double, accelerator := none, classification := none, wc := none, rankingOP := false, kmaxOp := none }

theorem linModel_consistent (s : Solver) (outputs : Nat) (norm : ℝ) (W : List (List ℝ)) (hW : ∀ w ∈ W, w.length = 2) :
    Consistent (linModel s outputs norm W).nnet where
  groups := by
    intro g hg
    simp only [linModel, List.mem_singleton] at hg
    subst hg
    exact ⟨rfl, by simp, hW⟩
  types := by simp [linModel]
  count := Or.inl (by simp [linModel])
  weights := by intro B h; cases h
  corrs := by intro HH HT h; cases h

theorem linModel_project (s : Solver) (outputs : Nat) (norm : ℝ) (W : List (List ℝ)) (X : Mat ℝ) (hX : X.cols = 2) :
    ∃ H, (linModel s outputs norm W).nnet.project realEnv X = .ok H := by
  refine ⟨_, (project_ok_iff _ _ _ _).2 ⟨hX, ?_, by simp [linModel], rfl⟩⟩
  intro g hg
  simp only [linModel, List.mem_singleton] at hg
  subst hg
  rfl

theorem PlainTrain_predicts {env : Env K} (hl : Lawful env) (hx : env.Exact) {e e' : ELM K} {X T : Mat K} {args kw}
    (h : PlainTrain env e X T args kw e') (Xn Hn : Mat K) (hp : e.nnet.project env Xn = .ok Hn) : ∃ P, Predicts env e' Xn P := by
  obtain ⟨fs, rnd, r, hr⟩ := h.run
  obtain ⟨H, S, HT, w, p0, hN, p1, p2, p3, p4, p5, p6, p7, p8, p9, p10, p11, p12, p13, p14⟩ :=
    train_plain hx h.sqrt h.noSelection.1 h.noSelection.2.1 h.noSelection.2.2 h.batch h.targets h.oneHot h.weights hr
  have hpd : PosDef S := posDef_gram p6 p7 (by rw [← p6.square, p7]) (fun i j hi hj => p13 i hi j hj) h.norm p12
  obtain ⟨q1, q2, q3, q4⟩ := solveCorr_posDef hl hx e.nnet p6 hpd (Or.inr rfl) p8 (by rw [p9, p7])
  have b1 : (e.nnet.solveCorr env (e.nnet.store S) HT).nrows = H.cols := by rw [q3, ← p6.square, p7]
  have c1 := (project_WF h.consistent p1).2.2
  have c2 := (project_WF h.consistent hp).2.2
  have hcol : Xn.cols = e.nnet.inputs := ((project_ok_iff _ _ _ _).1 hp).1
  refine ⟨Hn.mul (e.nnet.solveCorr env (e.nnet.store S) HT), fun _ => none, ?_⟩
  have hp' : e'.nnet.project env Xn = .ok Hn := by rw [p5]; exact hp
  have hB : e'.nnet.B = some (e.nnet.solveCorr env (e.nnet.store S) HT) := by rw [p5]
  have hi : e'.nnet.inputs = e.nnet.inputs := by rw [p5]; rfl
  have h1 : checkOne (fun _ => none) e'.nnet.inputs (.mat Xn) = .ok (some Xn) := by
    unfold checkOne
    simp only [pure_bind, hi, hcol, pyAssert, decide_true, if_true]
    rfl
  unfold ELM.predict
  rw [h1]
  show e'.nnet.predict env Xn = _
  unfold NNet.predict
  rw [hB]
  simp only [hp', bind, Except.bind]
  rw [if_neg (by rw [b1, c1, c2]; simp)]
  rfl

theorem linModel_train (s : Solver) (outputs : Nat) (norm : ℝ) (hn : 0 < norm) (W : List (List ℝ)) (hW : ∀ w ∈ W, w.length = 2) (X T : Mat ℝ)
    (hX : X.cols = 2) (hT : T.cols = outputs) (hTw : T.WF) (hN : X.nrows = T.nrows) (h0 : 0 < X.nrows) :
    ∃ e', PlainTrain realEnv (linModel s outputs norm W) X T [] {} e' ∧ e'.classification ≠ some "wc" ∧ e'.classification = none ∧ e'.wc = none := by
  obtain ⟨H, hH⟩ := linModel_project s outputs norm W X hX
  have hpa : (linModel s outputs norm W).parseArgs [] {} = ({ linModel s outputs norm W with nnet := (linModel s outputs norm W).nnet.reset }, .ok ()) := by
    unfold ELM.parseArgs
    rw [if_neg (by simp [linModel])]
    have h1 : atMostOne ([].map upper) ["V", "CV", "LOO"] = true := by decide +kernel
    have h2 : atMostOne ([].map upper) ["C", "WC", "ML", "MC"] = true := by decide +kernel
    simp only [h1, h2, Bool.not_true, Bool.false_eq_true, if_false, List.map_nil, parseLoop]
    rfl
  obtain ⟨e', he⟩ := train_plain_total (env := realEnv) (fs := fun _ => none) (rnd := ⟨fun _ => []⟩) (T := T) (kw := {})
    (lawEnv_exact _) (by simp) (by simp) (by simp) (by simp [linModel]) (by simp) hX hT hN h0 hpa (linModel_consistent s outputs norm W hW) hH
  have hcl : e'.classification = none ∧ e'.wc = none := by
    obtain ⟨X', T', e1, h1, h2, h3⟩ := train_ok he
    obtain ⟨_, e2, n, a1, a2, a3⟩ := trainBody_plain (by simp) (by simp) (by simp) h3
    obtain ⟨c, hc'⟩ := addData_fields a1
    rw [hpa] at h2
    injection h2 with h2 _
    rw [a3, hc', ← h2]
    unfold ELM.autoWc
    rw [if_neg (by simp [linModel])]
    exact ⟨rfl, rfl⟩
  refine ⟨e', ⟨linModel_consistent s outputs norm W hW, hn, by simp [linModel], by simp, hTw, by simp [Given], by simp [Given], by simp, _, _, _, he⟩, ?_, hcl⟩
  rw [hcl.1]; simp

/-- C64-C67: models with two outputs, one output, permuted neurons, fewer neurons and larger regularisation can all be trained. -/
example (s : Solver) : ∃ e₁ e₂ e₃ e₄ e₅ : ELM ℝ,
    PlainTrain realEnv (linModel s 2 1 [[1, 0], [0, 1]]) ⟨2, [[1, 0], [0, 1], [2, 3]]⟩ ⟨2, [[1, 4], [2, 5], [3, 6]]⟩ [] {} e₁ ∧
    PlainTrain realEnv (linModel .basic 1 1 [[1, 0], [0, 1]]) ⟨2, [[1, 0], [0, 1], [2, 3]]⟩ ⟨1, [[4], [5], [6]]⟩ [] {} e₂ ∧
    PlainTrain realEnv (linModel s 2 1 [[0, 1], [1, 0]]) ⟨2, [[1, 0], [0, 1], [2, 3]]⟩ ⟨2, [[1, 4], [2, 5], [3, 6]]⟩ [] {} e₃ ∧
    PlainTrain realEnv (linModel s 2 1 [[0, 1]]) ⟨2, [[1, 0], [0, 1], [2, 3]]⟩ ⟨2, [[1, 4], [2, 5], [3, 6]]⟩ [] {} e₄ ∧
    PlainTrain realEnv (linModel s 2 3 [[1, 0], [0, 1]]) ⟨2, [[1, 0], [0, 1], [2, 3]]⟩ ⟨2, [[1, 4], [2, 5], [3, 6]]⟩ [] {} e₅ ∧
    (neuronList (linModel s 2 1 [[1, 0], [0, 1]]).nnet).Perm (neuronList (linModel s 2 1 [[0, 1], [1, 0]]).nnet) ∧
    (neuronList (linModel s 2 1 [[0, 1]]).nnet).Subperm (neuronList (linModel s 2 1 [[1, 0], [0, 1]]).nnet) ∧
    ∃ P, Predicts realEnv e₁ ⟨2, [[7, 8]]⟩ P := by
  obtain ⟨e₁, h₁, _⟩ := linModel_train s 2 1 one_pos [[1, 0], [0, 1]] (by simp) ⟨2, [[1, 0], [0, 1], [2, 3]]⟩ ⟨2, [[1, 4], [2, 5], [3, 6]]⟩
    rfl rfl (by simp [Mat.WF]) rfl (by simp [Mat.nrows])
  obtain ⟨e₂, h₂, _⟩ := linModel_train .basic 1 1 one_pos [[1, 0], [0, 1]] (by simp) ⟨2, [[1, 0], [0, 1], [2, 3]]⟩ ⟨1, [[4], [5], [6]]⟩
    rfl rfl (by simp [Mat.WF]) rfl (by simp [Mat.nrows])
  obtain ⟨e₃, h₃, _⟩ := linModel_train s 2 1 one_pos [[0, 1], [1, 0]] (by simp) ⟨2, [[1, 0], [0, 1], [2, 3]]⟩ ⟨2, [[1, 4], [2, 5], [3, 6]]⟩
    rfl rfl (by simp [Mat.WF]) rfl (by simp [Mat.nrows])
  obtain ⟨e₄, h₄, _⟩ := linModel_train s 2 1 one_pos [[0, 1]] (by simp) ⟨2, [[1, 0], [0, 1], [2, 3]]⟩ ⟨2, [[1, 4], [2, 5], [3, 6]]⟩
    rfl rfl (by simp [Mat.WF]) rfl (by simp [Mat.nrows])
  obtain ⟨e₅, h₅, _⟩ := linModel_train s 2 3 (by norm_num) [[1, 0], [0, 1]] (by simp) ⟨2, [[1, 0], [0, 1], [2, 3]]⟩ ⟨2, [[1, 4], [2, 5], [3, 6]]⟩
    rfl rfl (by simp [Mat.WF]) rfl (by simp [Mat.nrows])
  refine ⟨e₁, e₂, e₃, e₄, e₅, h₁, h₂, h₃, h₄, h₅, ?_, ?_, ?_⟩
  · exact List.Perm.swap _ _ _
  · exact (List.sublist_cons_self _ _).subperm
  · obtain ⟨H, hH⟩ := linModel_project s 2 1 [[1, 0], [0, 1]] ⟨2, [[7, 8]]⟩ rfl
    exact PlainTrain_predicts (lawEnv_lawful _) (lawEnv_exact _) h₁ _ H hH

/-- C68: weighted classification with class weights 2 and 1, and the data with the samples of the first class repeated. -/
example (s : Solver) : ∃ e₁ e₂ : ELM ℝ,
    PlainTrain realEnv (linModel s 2 1 [[1, 0], [0, 1]]) ⟨2, [[1, 0], [0, 1], [2, 3]]⟩ ⟨2, [[1, 0], [0, 1], [1, 0]]⟩ ["wc"] { w := some [2, 1] } e₁ ∧
    PlainTrain realEnv (linModel s 2 1 [[1, 0], [0, 1]]) (repeatRows [2, 1, 2] ⟨2, [[1, 0], [0, 1], [2, 3]]⟩)
      (repeatRows [2, 1, 2] ⟨2, [[1, 0], [0, 1], [1, 0]]⟩) [] {} e₂ ∧
    SampleWeights e₁.classification e₁.wc ⟨2, [[1, 0], [0, 1], [1, 0]]⟩ (fun i => (([2, 1, 2] : List Nat).getD i 0 : ℝ)) ∧
    e₂.classification ≠ some "wc" := by
  obtain ⟨e₂, h₂, hc₂, _⟩ := linModel_train s 2 1 one_pos [[1, 0], [0, 1]] (by simp) (repeatRows [2, 1, 2] ⟨2, [[1, 0], [0, 1], [2, 3]]⟩)
    (repeatRows [2, 1, 2] ⟨2, [[1, 0], [0, 1], [1, 0]]⟩) rfl rfl (by simp [Mat.WF, repeatRows]) (by simp [Mat.nrows, repeatRows]) (by simp [Mat.nrows, repeatRows])
  obtain ⟨H, hH⟩ := linModel_project s 2 1 [[1, 0], [0, 1]] ⟨2, [[1, 0], [0, 1], [2, 3]]⟩ rfl
  have hupper : (["wc"] : List String).map upper = ["WC"] := by decide +kernel
  have hpa : (linModel s 2 1 [[1, 0], [0, 1]]).parseArgs ["wc"] { w := some [2, 1] } =
      ({ linModel s 2 1 [[1, 0], [0, 1]] with
          nnet := (linModel s 2 1 [[1, 0], [0, 1]]).nnet.reset, classification := some "wc", wc := some [some 2, some 1] }, .ok ()) := by
    unfold ELM.parseArgs
    rw [hupper, if_neg (by simp [linModel])]
    have h1 : atMostOne ["WC"] ["V", "CV", "LOO"] = true := by decide +kernel
    have h2 : atMostOne ["WC"] ["C", "WC", "ML", "MC"] = true := by decide +kernel
    simp only [h1, h2, Bool.not_true, Bool.false_eq_true, if_false, parseLoop, parseOne]
    rfl
  obtain ⟨e', he⟩ := train_plain_total (env := realEnv) (fs := fun _ => none) (rnd := ⟨fun _ => []⟩)
    (X := ⟨2, [[1, 0], [0, 1], [2, 3]]⟩) (T := ⟨2, [[1, 0], [0, 1], [1, 0]]⟩) (args := ["wc"]) (kw := { w := some [2, 1] })
    (lawEnv_exact _) (by simp) (by simp) (by simp) (by simp [linModel]) (fun _ => exOneHot) rfl rfl rfl (by simp [Mat.nrows]) hpa
    (linModel_consistent s 2 1 [[1, 0], [0, 1]] (by simp)) hH
  have hcl : e'.classification = some "wc" ∧ e'.wc = some [some 2, some 1] := by
    obtain ⟨X', T', e1, h1, h2, h3⟩ := train_ok he
    obtain ⟨_, e2, n, a1, a2, a3⟩ := trainBody_plain (by simp) (by simp) (by simp) h3
    obtain ⟨c, hc'⟩ := addData_fields a1
    rw [hpa] at h2
    injection h2 with h2 _
    rw [a3, hc', ← h2]
    unfold ELM.autoWc
    rw [if_neg (by simp)]
    exact ⟨rfl, rfl⟩
  refine ⟨e', e₂, ⟨linModel_consistent s 2 1 _ (by simp), one_pos, by simp [linModel], by simp, by simp [Mat.WF],
    fun _ x hx => Real.mul_self_sqrt hx, fun _ => exOneHot, ?_, _, _, _, he⟩, h₂, ?_, hc₂⟩
  · intro ws h x hx
    injection h with h
    subst h
    simp only [List.mem_cons, List.not_mem_nil, or_false] at hx
    rcases hx with rfl | rfl <;> norm_num
  · rw [hcl.1, hcl.2]
    intro i hi
    refine ⟨fun h => absurd rfl h, fun _ => ⟨[some 2, some 1], ?_⟩⟩
    have c0 : IsClass 2 ([1, 0] : List ℝ) 0 := by
      refine ⟨by omega, rfl, ?_⟩
      intro j hj
      have : j = 0 ∨ j = 1 := by omega
      rcases this with rfl | rfl <;> simp
    have c1 : IsClass 2 ([0, 1] : List ℝ) 1 := by
      refine ⟨by omega, rfl, ?_⟩
      intro j hj
      have : j = 0 ∨ j = 1 := by omega
      rcases this with rfl | rfl <;> simp
    have : i = 0 ∨ i = 1 ∨ i = 2 := by simp [Mat.nrows] at hi; omega
    rcases this with rfl | rfl | rfl
    · exact ⟨0, rfl, c0, by simp⟩
    · exact ⟨1, rfl, c1, by simp⟩
    · exact ⟨0, rfl, c0, by simp⟩

end Hpelm.Props
