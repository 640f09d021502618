import Verif.Lemmas.Twin
import Verif.Lemmas.QEnv

/-!
# C91 — how the inputs are described does not matter

Other order of the features, another origin, other units, additional features that are ignored: training and prediction with accordingly
changed neurons give the same results, in every training mode.
-/

set_option linter.unusedSectionVars false

namespace Hpelm.Props
open Hpelm Spec
variable {K : Type} [Field K] [LinearOrder K]

/-- C91 (general form).  Two models with the same settings, whose neurons give the same outputs on corresponding samples, cannot be told
apart by training and prediction: training depends on its inputs only through the hidden layer.  All solvers, kinds of problems,
selection methods and rankings; numbers of inputs may differ. -/
theorem C91_only_hidden_layer (env : Env K) (R : List K → List K → Prop) (e e' : ELM K) (h : TwinNets env R e.nnet e'.nnet)
    (hb : e'.batch = e.batch) (hp : e'.prec = e.prec) : SameOutcome env R e e' := by
  intro fs rnd X X' T args kw Xv' hX hv
  have hcb := twin_checkBoth (fs := fs) h.outputs hX T
  unfold ELM.train
  cases h1 : checkBoth fs e.nnet (.mat X) T with
  | error x =>
    cases h2 : checkBoth fs e'.nnet (.mat X') T with
    | error y =>
      rw [h1, h2] at hcb
      have : x = y := hcb
      subst this
      exact ⟨_, _, _, rfl, rfl, fun v hv => by cases hv⟩
    | ok p => rw [h1, h2] at hcb; exact hcb.elim
  | ok p =>
    cases h2 : checkBoth fs e'.nnet (.mat X') T with
    | error y => rw [h1, h2] at hcb; exact hcb.elim
    | ok p' =>
      rw [h1, h2] at hcb
      obtain ⟨A, B⟩ := p
      obtain ⟨A', B'⟩ := p'
      obtain ⟨rfl, rfl, rfl⟩ : A = X ∧ A' = X' ∧ B' = B := hcb
      simp only
      obtain ⟨q1, q2⟩ := twin_parseArgs (kw := kw) (kw' := { kw with Xv := Xv' }) rfl rfl rfl args h hb hp
      cases hq : e.parseArgs args kw with
      | mk f r =>
        cases hq' : e'.parseArgs args { kw with Xv := Xv' } with
        | mk f' r' =>
          rw [hq, hq'] at q1 q2
          simp only at q1 q2
          subst q1
          cases r' with
          | error x => exact ⟨_, _, _, rfl, rfl, fun v hv => by cases hv⟩
          | ok u =>
            obtain ⟨s1, s2, s3⟩ := q2 rfl
            simp only
            have hv1 : TwinOpt R f.nnet f'.nnet kw.Xv Xv' := by
              generalize kw.Xv = v at hv
              cases hv with
              | none => exact .none
              | some Y Y' hY => exact .some Y Y' (hY.mono s2 s3)
            have ht := twin_trainBody (fs := fs) (rnd := rnd) (kw := kw) (kw' := { kw with Xv := Xv' }) s1 (hX.mono s2 s3) B' args rfl rfl hv1
            cases hr : f.trainBody env fs rnd A B' args kw with
            | error x =>
              cases hr' : f'.trainBody env fs rnd A' B' args { kw with Xv := Xv' } with
              | error y =>
                rw [hr, hr'] at ht
                have : x = y := ht
                subst this
                exact ⟨_, _, _, rfl, rfl, fun v hv => by cases hv⟩
              | ok p => rw [hr, hr'] at ht; exact ht.elim
            | ok p =>
              cases hr' : f'.trainBody env fs rnd A' B' args { kw with Xv := Xv' } with
              | error y => rw [hr, hr'] at ht; exact ht.elim
              | ok p' =>
                rw [hr, hr'] at ht
                obtain ⟨v, a⟩ := p
                obtain ⟨v', a'⟩ := p'
                obtain ⟨hvv, ⟨t1, t2, t3⟩, hB⟩ := ht
                simp only at hvv t1 t2 t3 hB
                subst hvv
                refine ⟨_, _, _, rfl, rfl, fun _ _ => ⟨hB, ?_, t1.classification, t1.wc, ?_⟩⟩
                · unfold size
                  rw [t1.nnet.toTwinNets.numbers]
                · intro Xn Xn' hXn
                  have hXn := hXn.mono (t2.trans s2) (t3.trans s3)
                  have hpr := twin_predict t1.nnet.neurons hB hXn
                  unfold ELM.predict checkOne
                  simp only [hXn.cols, hXn.cols', pyAssert, pure, Except.pure, bind, Except.bind]
                  simpa using hpr

/-! ## Special cases -/

/-- A retuned network is a twin if every neuron has the same output as before. -/
theorem retune_twin {env : Env K} {R : List K → List K → Prop} {n : NNet K} (hc : Consistent n) (inputs : Nat)
    (f : Func → List K → K → List K × K)
    (hf : ∀ g ∈ n.neurons, ∀ s a, g.func = .name s → act env s = some a → ∀ x x', R x x' → ∀ w b, w.length = n.inputs →
      a x w b = a x' (f g.func w b).1 (f g.func w b).2) : TwinNets env R n (retune inputs f n) := by
  refine ⟨rfl, rfl, rfl, rfl, ?_⟩
  show List.Forall₂ (TwinGroups env R) n.neurons (n.neurons.map _)
  have hg := hc.groups
  generalize n.neurons = gs at hf hg
  induction gs with
  | nil => exact .nil
  | cons g gs ih =>
    refine .cons ?_ (ih (fun g hg => hf g (List.mem_cons_of_mem _ hg)) fun g hm => hg g (List.mem_cons_of_mem _ hm))
    obtain ⟨g1, g2, g3⟩ := hg g List.mem_cons_self
    refine ⟨rfl, rfl, ⟨g1, g2, by simp [g1, g2], by simp [g1, g2]⟩, ?_⟩
    intro s a h1 h2 x x' hr k hk
    have k1 : k < g.W.length := g1.symm ▸ hk
    have k2 : k < g.B.length := g2.symm ▸ hk
    rw [List.getD_eq_getElem _ _ k1, List.getD_eq_getElem _ _ k2, List.getD_eq_getElem _ _ (by simp; omega),
      List.getD_eq_getElem _ _ (by simp; omega)]
    simp only [List.getElem_zipWith]
    exact hf g List.mem_cons_self s a h1 h2 x x' hr _ _ (g3 _ (List.getElem_mem k1))

theorem retune_outcome {env : Env K} {R : List K → List K → Prop} {e : ELM K} (hc : Consistent e.nnet) (inputs : Nat)
    (f : Func → List K → K → List K × K)
    (hf : ∀ g ∈ e.nnet.neurons, ∀ s a, g.func = .name s → act env s = some a → ∀ x x', R x x' → ∀ w b, w.length = e.nnet.inputs →
      a x w b = a x' (f g.func w b).1 (f g.func w b).2) : SameOutcome env R e { e with nnet := retune inputs f e.nnet } :=
  C91_only_hidden_layer env R e _ (retune_twin hc inputs f hf) rfl rfl

theorem reorder_zip {m : Nat} {σ : List Nat} (hσ : σ.Perm (List.range m)) (f : K → K → K) {x w : List K} (hx : x.length = m) (hw : w.length = m) :
    (List.zipWith f (reorder σ x) (reorder σ w)).Perm (List.zipWith f x w) := by
  have h1 : ∀ l : List Nat, List.zipWith f (reorder l x) (reorder l w) = l.map fun i => f (x.getD i 0) (w.getD i 0) := by
    intro l
    unfold reorder
    rw [List.zipWith_map]
    induction l with
    | nil => rfl
    | cons i l ih => simp only [List.zipWith_cons_cons, List.map_cons, ih]
  have h2 : List.zipWith f x w = (List.range m).map fun i => f (x.getD i 0) (w.getD i 0) := by
    apply List.ext_getElem
    · simp [hx, hw]
    · intro i a b
      simp only [List.length_zipWith, hx, hw] at a
      simp only [List.getElem_zipWith, List.getElem_map, List.getElem_range]
      rw [List.getD_eq_getElem _ _ (by omega), List.getD_eq_getElem _ _ (by omega)]
  rw [h1, h2]
  exact hσ.map _

theorem foldl_max_perm {l l' : List K} (h : l.Perm l') (c : K) : l.foldl max c = l'.foldl max c := by
  have : RightCommutative (max : K → K → K) := ⟨fun a b c => by rw [max_assoc, max_comm b c, ← max_assoc]⟩
  exact h.foldl_eq c

/-- C91 (order of the features).  The features may be given in any order: a model with accordingly ordered weights, of every neuron type,
behaves the same on accordingly ordered inputs, in every training mode. -/
theorem C91_feature_order (env : Env K) (e : ELM K) (hc : Consistent e.nnet) (σ : List Nat) (hσ : σ.Perm (List.range e.nnet.inputs)) :
    SameOutcome env (fun x x' => x.length = e.nnet.inputs ∧ x' = reorder σ x) e
      { e with nnet := retune e.nnet.inputs (fun _ w b => (reorder σ w, b)) e.nnet } := by
  refine retune_outcome hc _ _ ?_
  rintro g - s a - ha x x' ⟨hx, rfl⟩ w b hw
  have hd : dot (reorder σ x) (reorder σ w) = dot x w := (reorder_zip hσ _ hx hw).sum_eq
  have h1 : distL1 (reorder σ x) (reorder σ w) = distL1 x w := (reorder_zip hσ _ hx hw).sum_eq
  have h2 : distL2 env (reorder σ x) (reorder σ w) = distL2 env x w := congrArg env.sqrt (reorder_zip hσ _ hx hw).sum_eq
  have h3 : distLinf (reorder σ x) (reorder σ w) = distLinf x w := foldl_max_perm (reorder_zip hσ _ hx hw) 0
  unfold act at ha
  split_ifs at ha <;> injection ha with ha <;> subst ha <;> simp only [hd, h1, h2, h3]

theorem dot_shifted {m x w : List K} (hx : x.length = m.length) (hw : w.length = m.length) : dot (shifted m x) w = dot x w - dot m w := by
  unfold dot shifted
  induction m generalizing x w with
  | nil => simp only [List.length_nil, List.length_eq_zero_iff] at hx hw; subst hx hw; simp
  | cons a m ih =>
    cases x with
    | nil => cases hx
    | cons b x =>
      cases w with
      | nil => cases hw
      | cons c w =>
        simp only [List.length_cons, Nat.add_right_cancel_iff] at hx hw
        simp only [List.zipWith_cons_cons, List.sum_cons, ih hx hw]
        ring

theorem zip_shifted (f : K → K → K) (hf : ∀ a b c, f (a - c) (b - c) = f a b) {m x w : List K} (hx : x.length = m.length)
    (hw : w.length = m.length) : List.zipWith f (shifted m x) (shifted m w) = List.zipWith f x w := by
  unfold shifted
  induction m generalizing x w with
  | nil => simp only [List.length_nil, List.length_eq_zero_iff] at hx hw; subst hx hw; rfl
  | cons a m ih =>
    cases x with
    | nil => cases hx
    | cons b x =>
      cases w with
      | nil => cases hw
      | cons c w =>
        simp only [List.length_cons, Nat.add_right_cancel_iff] at hx hw
        simp only [List.zipWith_cons_cons, ih hx hw, hf]

/-- Neurons for inputs with another origin: radial basis functions move their centres, the other neurons change their biases. -/
def moveOrigin (m : List K) (f : Func) (w : List K) (b : K) : List K × K :=
  if f ∈ [Func.name "lin", Func.name "sigm", Func.name "tanh"] then (w, b + dot m w) else (shifted m w, b)

/-- C91 (origin).  The inputs may be measured from any origin: for every network, of every mixture of neuron types, the network with moved
centres and changed biases behaves the same on the shifted inputs, in every training mode. -/
theorem C91_origin (env : Env K) (e : ELM K) (hc : Consistent e.nnet) (m : List K) (hm : m.length = e.nnet.inputs) :
    SameOutcome env (fun x x' => x.length = e.nnet.inputs ∧ x' = shifted m x) e
      { e with nnet := retune e.nnet.inputs (moveOrigin m) e.nnet } := by
  refine retune_outcome hc _ _ ?_
  rintro g - s a hs ha x x' ⟨hx, rfl⟩ w b hw
  have hx' : x.length = m.length := hx.trans hm.symm
  have hw' : w.length = m.length := hw.trans hm.symm
  have hd : dot (shifted m x) w + (b + dot m w) = dot x w + b := by rw [dot_shifted hx' hw']; ring
  have h1 : distL1 (shifted m x) (shifted m w) = distL1 x w := congrArg List.sum (zip_shifted _ (fun a b c => by congr 1; ring) hx' hw')
  have h2 : distL2 env (shifted m x) (shifted m w) = distL2 env x w :=
    congrArg (fun l => env.sqrt (List.sum l)) (zip_shifted _ (fun a b c => by ring) hx' hw')
  have h3 : distLinf (shifted m x) (shifted m w) = distLinf x w :=
    congrArg (fun l => List.foldl max 0 l) (zip_shifted _ (fun a b c => by congr 1; ring) hx' hw')
  unfold moveOrigin
  rw [hs]
  unfold act at ha
  split_ifs at ha <;> injection ha with ha <;> subst ha <;> subst_vars <;> simp [hd, h1, h2, h3]

theorem dot_normalised {m s x w : List K} (hs : ∀ c ∈ s, c ≠ 0) (hx : x.length = m.length) (hw : w.length = m.length) (hl : s.length = m.length) :
    dot (normalised m s x) (List.zipWith (· * ·) w s) = dot x w - dot m w := by
  unfold dot normalised shifted
  induction m generalizing x w s with
  | nil => simp only [List.length_nil, List.length_eq_zero_iff] at hx hw; subst hx hw; simp
  | cons a m ih =>
    cases x with
    | nil => cases hx
    | cons b x =>
      cases w with
      | nil => cases hw
      | cons c w =>
        cases s with
        | nil => cases hl
        | cons d s =>
          simp only [List.length_cons, Nat.add_right_cancel_iff] at hx hw hl
          have hd : d ≠ 0 := hs d List.mem_cons_self
          simp only [List.zipWith_cons_cons, List.sum_cons, ih (fun c hc => hs c (List.mem_cons_of_mem _ hc)) hx hw hl]
          field_simp
          ring

/-- C91 (units).  For networks of linear, sigmoid and tanh neurons, training on normalised inputs is training on the raw inputs with other
neurons: for every mean and every scale without zeros, scaled weights and changed biases give the same behaviour, in every training mode. -/
theorem C91_normalised (env : Env K) (e : ELM K) (hc : Consistent e.nnet)
    (ht : ∀ g ∈ e.nnet.neurons, g.func ∈ [Func.name "lin", Func.name "sigm", Func.name "tanh"])
    (m s : List K) (hm : m.length = e.nnet.inputs) (hl : s.length = e.nnet.inputs) (hs : ∀ c ∈ s, c ≠ 0) :
    SameOutcome env (fun x x' => x.length = e.nnet.inputs ∧ x' = normalised m s x) e
      { e with nnet := retune e.nnet.inputs (fun _ w b => (List.zipWith (· * ·) w s, b + dot m w)) e.nnet } := by
  refine retune_outcome hc _ _ ?_
  rintro g hg t a hf ha x x' ⟨hx, rfl⟩ w b hw
  have hd : dot (normalised m s x) (List.zipWith (· * ·) w s) + (b + dot m w) = dot x w + b := by
    rw [dot_normalised hs (hx.trans hm.symm) (hw.trans hm.symm) (hl.trans hm.symm)]; ring
  have := ht g hg
  rw [hf] at this
  simp only [List.mem_cons, Func.name.injEq, List.not_mem_nil, or_false] at this
  unfold act at ha
  rcases this with rfl | rfl | rfl
  · rw [if_pos rfl] at ha; injection ha with ha; subst ha; simp only [hd]
  · rw [if_neg (by decide), if_pos rfl] at ha; injection ha with ha; subst ha; simp only [hd]
  · rw [if_neg (by decide), if_neg (by decide), if_pos rfl] at ha; injection ha with ha; subst ha; simp only [hd]

/-- C91 (additional features).  For networks of linear, sigmoid and tanh neurons, additional features with zero weights change nothing, in
every training mode. -/
theorem C91_ignored_features (env : Env K) (e : ELM K) (hc : Consistent e.nnet)
    (ht : ∀ g ∈ e.nnet.neurons, g.func ∈ [Func.name "lin", Func.name "sigm", Func.name "tanh"]) (d : Nat) :
    SameOutcome env (fun x x' => x.length = e.nnet.inputs ∧ ∃ y, y.length = d ∧ x' = x ++ y) e
      { e with nnet := retune (e.nnet.inputs + d) (fun _ w b => (w ++ List.replicate d 0, b)) e.nnet } := by
  refine retune_outcome hc _ _ ?_
  rintro g hg t a hf ha x x' ⟨hx, y, hy, rfl⟩ w b hw
  have hd : dot (x ++ y) (w ++ List.replicate d 0) = dot x w := by
    unfold dot
    rw [List.zipWith_append (hx.trans hw.symm), List.sum_append]
    have : (List.zipWith (· * ·) y (List.replicate d (0 : K))).sum = 0 := by
      apply List.sum_eq_zero
      intro z hz
      obtain ⟨i, hi, rfl⟩ := List.getElem_of_mem hz
      simp
    rw [this, add_zero]
  have := ht g hg
  rw [hf] at this
  simp only [List.mem_cons, Func.name.injEq, List.not_mem_nil, or_false] at this
  unfold act at ha
  rcases this with rfl | rfl | rfl
  · rw [if_pos rfl] at ha; injection ha with ha; subst ha; simp only [hd]
  · rw [if_neg (by decide), if_pos rfl] at ha; injection ha with ha; subst ha; simp only [hd]
  · rw [if_neg (by decide), if_neg (by decide), if_pos rfl] at ha; injection ha with ha; subst ha; simp only [hd]

/-- A network with two inputs, two linear neurons and two radial basis functions, for the examples. -/
def exInputs : ELM ℚ :=
  { nnet := { solver := .python, prec := .double, inputs := 2, outputs := 1, norm := 1
              neurons := [⟨2, .name "lin", [[1, 2], [0, 3]], [0, 1]⟩, ⟨2, .name "rbf_l1", [[1, 1], [2, 0]], [1, 2]⟩], L := some 4
              B := none, corr := none }
    batch := 2, prec := .double, accelerator := none, classification := none, wc := none, rankingOP := false, kmaxOp := none }

theorem exInputs_consistent : Consistent exInputs.nnet :=
  ⟨by decide +kernel, by decide +kernel, Or.inl rfl, by simp [exInputs], by simp [exInputs]⟩

/-- The hypotheses are met: features swapped, a training call with selection by validation that succeeds on both models. -/
example : [1, 0].Perm (List.range exInputs.nnet.inputs) ∧
    TwinData (fun x x' => x.length = 2 ∧ x' = reorder [1, 0] x) exInputs.nnet
      (retune 2 (fun _ w b => (reorder [1, 0] w, b)) exInputs.nnet)
      (⟨2, [[1, 0], [2, 5], [3, 1]]⟩ : Mat ℚ) ⟨2, [[0, 1], [5, 2], [1, 3]]⟩ ∧
    (exInputs.train QEnv.env (fun _ => none) ⟨fun _ => [2, 0, 1, 3]⟩ (.mat ⟨2, [[1, 0], [2, 5], [3, 1]]⟩) (.mat ⟨1, [[1], [2], [0]]⟩) ["V"]
      { Xv := some (.mat ⟨2, [[1, 1], [0, 2]]⟩), Tv := some (.mat ⟨1, [[1], [3]]⟩) }).1 = .ok none := by
  refine ⟨by decide, ⟨rfl, rfl, ?_⟩, by decide +kernel⟩
  refine .cons ⟨rfl, by decide +kernel⟩ (.cons ⟨rfl, by decide +kernel⟩ (.cons ⟨rfl, by decide +kernel⟩ .nil))

/-- Normalised inputs with mean (2, 2) and scale (1, 1/2); inputs with an additional feature. -/
example : normalised [2, 2] [1, 1 / 2] [3, 1] = ([1, -2] : List ℚ) ∧ (∀ c ∈ ([1, 1 / 2] : List ℚ), c ≠ 0) ∧
    shifted [2, 2] [3, 1] = ([1, -1] : List ℚ) ∧
    (retune 3 (fun _ w b => (w ++ List.replicate 1 0, b)) exInputs.nnet).neurons.map (·.W) =
      [[[1, 2, 0], [0, 3, 0]], [[1, 1, 0], [2, 0, 0]]] := by decide +kernel

end Hpelm.Props
