import Verif.Props.C01_Bookkeeping
import Verif.Spec.Data

/-!
# C02, C03, C04 — what the network computes
-/

namespace Hpelm.Props
open Hpelm Spec
variable {K : Type} [Field K] [LinearOrder K]

/-! ## C02 adding neurons -/

/-- C02, first half.  Adding `k1` neurons and then `k2` neurons of the same type with given weights is the same as adding
all `k1 + k2` in one call (weight arrays stacked): same resulting model, or the same exception. -/
theorem C02_merge (env : Env K) (rW : Nat → Mat K) (rB : Nat → List K) (sq : K) (e : ELM K) (k1 k2 : Nat) (f : Func)
    (W1 W2 : Mat K) (B1 B2 : List K) (h1 : W1.nrows = k1) (h2 : W2.nrows = k2) (h3 : W1.cols = W2.cols)
    (h4 : B1.length = k1) (h5 : B2.length = k2) :
    (do let e1 ← e.addNeurons env rW rB sq k1 f (some W1) (some B1)
        e1.addNeurons env rW rB sq k2 f (some W2) (some B2))
      = e.addNeurons env rW rB sq (k1 + k2) f (some (vstack W1 W2)) (some (B1 ++ B2)) := by
  have e1 : (vstack W1 W2).cols = W1.cols := rfl
  have e2 : (vstack W1 W2).nrows = k1 + k2 := by simp [vstack, Mat.nrows] at *; omega
  by_cases hf : funcOk f = true
  · by_cases hc : W1.cols = e.nnet.inputs
    · have hc2 : W2.cols = e.nnet.inputs := by rw [← h3]; exact hc
      simp only [ELM.addNeurons, hf, hc, hc2, h1, h2, h4, h5, e1, e2, pyAssert, bind, Except.bind, pure, Except.pure,
        decide_true, and_self, if_true, List.length_append, NNet.addNeurons, NNet.reset, ← addGroup_addGroup, Bool.and_self]
      simp [vstack, Mat.map, addGroup_addGroup]
    · simp [ELM.addNeurons, hf, hc, e1, pyAssert, bind, Except.bind]
  · simp [ELM.addNeurons, hf, pyAssert, bind, Except.bind]

/-- A new block of neurons is inserted into the sequence of neurons, the others keep their order. -/
theorem addNeurons_insert (n : NNet K) (hc : Consistent n) (k : Nat) (f : Func) (W : List (List K)) (B : List K) :
    ∃ P Q, neuronList n = P ++ Q ∧
      neuronList (n.addNeurons k f W B) = P ++ (W.zip B).map (fun p => (f, p.1, p.2)) ++ Q := by
  simp only [neuronList, NNet.addNeurons, NNet.reset]
  rcases addGroup_spec n.neurons k f W B with ⟨pre, g, post, h1, h2, h3, h4⟩ | ⟨h1, h2⟩
  · rw [h4, h1]
    refine ⟨pre.flatMap (fun g => (g.W.zip g.B).map fun p => (g.func, p.1, p.2)) ++
      (g.W.zip g.B).map (fun p => (g.func, p.1, p.2)),
      post.flatMap (fun g => (g.W.zip g.B).map fun p => (g.func, p.1, p.2)), by simp, ?_⟩
    obtain ⟨g1, g2, _⟩ := hc.groups g (by rw [h1]; simp)
    simp only [List.flatMap_append, List.flatMap_cons]
    rw [List.zip_append (by rw [g1, g2])]
    simp [h2]
  · rw [h2]
    exact ⟨n.neurons.flatMap (fun g => (g.W.zip g.B).map fun p => (g.func, p.1, p.2)), [], by simp, by simp⟩

theorem getD_map_range {α : Type} (l : List α) (a m : Nat) (d : α) (h : a + m ≤ l.length) :
    (List.range' a m).map (fun j => l.getD j d) = (l.drop a).take m := by
  apply List.ext_getElem
  · simp; omega
  · intro i h1 h2
    simp only [List.length_map, List.length_range'] at h1
    simp [List.getD_eq_getElem?_getD, List.getElem?_eq_getElem (show a + i < l.length by omega)]

/-- C02, second half.  Adding neurons never changes what the neurons already present compute: there is an increasing list
`old` of column numbers, independent of the data, such that for every data set the columns `old` of the new hidden
representation are the old hidden representation; the remaining columns `new` are the hidden representation of a network
that has only the added neurons. -/
theorem C02_preserve (env : Env K) (n : NNet K) (hc : Consistent n) (k : Nat) (f : Func) (W : List (List K)) (B : List K)
    (hW : W.length = k) (hB : B.length = k) (hw : ∀ w ∈ W, w.length = n.inputs) :
    ∃ old new : List Nat, old.Pairwise (· < ·) ∧ new.Pairwise (· < ·) ∧ new.length = k ∧ (old ++ new).Perm (List.range (size n + k)) ∧
      (∀ X H H', n.project env X = .ok H → (n.addNeurons k f W B).project env X = .ok H' → H'.selCols old = H) ∧
      (∀ X H', (n.addNeurons k f W B).project env X = .ok H' →
        ({ n with neurons := [⟨k, f, W, B⟩] } : NNet K).project env X = .ok (H'.selCols new)) := by
  obtain ⟨P, Q, h1, h2⟩ := addNeurons_insert n hc k f W B
  have hc' := addNeurons_consistent (f := f) hc hW hB hw
  have hlen : P.length + Q.length = size n := by
    rw [← length_neuronList (n := n) (fun g hg => ⟨(hc.groups g hg).1, (hc.groups g hg).2.1⟩), h1, List.length_append]
  have hsel : ∀ (x : List K) (a m : Nat) (ns : List (Func × List K × K)), a + m ≤ ns.length →
      (List.range' a m).map (fun j => (outs env ns x).getD j 0) = outs env ((ns.drop a).take m) x := by
    intro x a m ns hm
    rw [getD_map_range _ _ _ _ (by rw [outs_length]; exact hm)]
    simp [outs, List.map_drop, List.map_take]
  have hNlen : ((W.zip B).map (fun p => (f, p.1, p.2))).length = k := by simp [hW, hB]
  refine ⟨List.range' 0 P.length ++ List.range' (P.length + k) Q.length, List.range' P.length k, ?_, ?_, by simp, ?_, ?_, ?_⟩
  · rw [List.pairwise_append]
    refine ⟨List.pairwise_lt_range', List.pairwise_lt_range', ?_⟩
    intro a ha b hb
    simp only [List.mem_range'] at ha hb
    omega
  · exact List.pairwise_lt_range'
  · rw [List.range_eq_range', show size n + k = P.length + (k + Q.length) by omega,
      ← List.range'_append_1 (s := 0) (m := P.length), ← List.range'_append_1 (m := k), List.append_assoc]
    apply List.Perm.append_left
    simp only [Nat.zero_add]
    exact List.perm_append_comm
  · intro X H H' hH hH'
    rw [project_ok_spec hc hH, project_ok_spec hc' hH', h2, h1]
    unfold Mat.selCols
    simp only [List.length_append, List.length_range', hlen, List.map_map]
    congr 1
    apply List.map_congr_left
    intro x _
    simp only [Function.comp, List.map_append]
    rw [hsel _ _ _ _ (by simp), hsel _ _ _ _ (by simp only [List.length_append, hNlen]; omega)]
    rw [← hNlen]
    simp [outs, ← List.length_append]
  · intro X H' hH'
    obtain ⟨p1, p2, p3, _⟩ := (project_ok_iff env _ X H').1 hH'
    have hact : (groupAct env ⟨k, f, W, B⟩).isSome := by
      have : ∃ g ∈ (n.addNeurons k f W B).neurons, g.func = f := by
        simp only [NNet.addNeurons, NNet.reset]
        rcases addGroup_spec n.neurons k f W B with ⟨pre, g, post, _, _, _, h4⟩ | ⟨_, h2⟩
        · rw [h4]; exact ⟨⟨g.number + k, f, g.W ++ W, g.B ++ B⟩, by simp, rfl⟩
        · rw [h2]; exact ⟨⟨k, f, W, B⟩, by simp, rfl⟩
      obtain ⟨g, hg, rfl⟩ := this
      have := p2 g hg
      unfold groupAct at this ⊢
      cases hs : g.func with
      | ufunc s => simp [hs] at this
      | name s =>
        simp only [hs] at this ⊢
        cases hh : act env s <;> simp_all
    have hcn : Consistent ({ n with neurons := [⟨k, f, W, B⟩], L := some k, B := none, corr := none } : NNet K) := by
      refine ⟨?_, by simp, Or.inl (by simp), by simp, by simp⟩
      intro g hg
      simp only [List.mem_singleton] at hg
      subst hg
      exact ⟨hW, hB, hw⟩
    have := project_isOk env ({ n with neurons := [⟨k, f, W, B⟩], L := some k, B := none, corr := none } : NNet K) X hcn p1
      (by intro g hg; simp only [List.mem_singleton] at hg; subst hg; exact hact) (by simp)
    have hsame : ({ n with neurons := [⟨k, f, W, B⟩] } : NNet K).project env X =
      ({ n with neurons := [⟨k, f, W, B⟩], L := some k, B := none, corr := none } : NNet K).project env X := rfl
    rw [hsame, this, project_ok_spec hc' hH', h2]
    simp only [Mat.selCols, List.length_range', List.map_map, Spec.size, List.map_cons, List.map_nil, List.sum_cons,
      List.sum_nil, Nat.add_zero]
    congr 2
    apply List.map_congr_left
    intro x _
    simp only [Function.comp]
    rw [hsel _ _ _ _ (by simp only [List.length_append, hNlen]; omega)]
    simp only [neuronList, List.flatMap_cons, List.flatMap_nil, List.append_nil, List.append_assoc, List.drop_left]
    rw [List.take_append_of_le_length (by omega), List.take_of_length_le (by omega)]

/-- The hypotheses of `C02_preserve` hold of a network with two types to which a third neuron of the first type is added:
it lands between them, and the old columns are 0 and 2. -/
example :
    let n := ((NNet.init QEnv.env .python 1 1 none .double).addNeurons 1 (.name "lin") [[2]] [1]).addNeurons 1 (.name "tanh") [[1]] [0]
    let n' := n.addNeurons 1 (.name "lin") [[5]] [7]
    (n.project QEnv.env ⟨1, [[1], [3]]⟩, n'.project QEnv.env ⟨1, [[1], [3]]⟩)
      = (.ok ⟨2, [[3, 1/2], [7, 3/4]]⟩, .ok ⟨3, [[3, 12, 1/2], [7, 22, 3/4]]⟩) := by decide +kernel

/-! ## C03 projection and prediction are row-wise -/

theorem project_vstack (env : Env K) (n : NNet K) (X1 X2 : Mat K) (h : X1.cols = X2.cols) :
    n.project env (vstack X1 X2) = (do
      let H1 ← n.project env X1
      let H2 ← n.project env X2
      pure (vstack H1 H2)) := by
  simp only [project_eq, vstack, ← h]
  split_ifs <;> simp [bind, Except.bind, pure, Except.pure]

/-- C03 for `project`: the hidden representation of stacked data is the stack of the hidden representations. -/
theorem C03_project_stack (env : Env K) (fs : Files K) (e : ELM K) (X1 X2 : Mat K) (h : X1.cols = X2.cols) :
    e.project env fs (.mat (vstack X1 X2)) = (do
      let H1 ← e.project env fs (.mat X1)
      let H2 ← e.project env fs (.mat X2)
      pure (vstack H1 H2)) := by
  simp only [ELM.project, checkOne, pure, Except.pure, bind, Except.bind, pyAssert]
  have e1 : (vstack X1 X2).cols = X1.cols := rfl
  by_cases h1 : X1.cols = e.nnet.inputs
  · simp only [e1, h1, h ▸ h1, decide_true, if_true]
    exact project_vstack env e.nnet X1 X2 h
  · simp [e1, h1]

theorem predict_vstack (env : Env K) (n : NNet K) (X1 X2 : Mat K) (h : X1.cols = X2.cols) :
    n.predict env (vstack X1 X2) = (do
      let H1 ← n.predict env X1
      let H2 ← n.predict env X2
      pure (vstack H1 H2)) := by
  unfold NNet.predict
  cases hB : n.B with
  | none => rfl
  | some B =>
    simp only
    rw [project_vstack env n X1 X2 h]
    cases h1 : n.project env X1 with
    | error x => rfl
    | ok H1 =>
      cases h2 : n.project env X2 with
      | error x =>
        exfalso
        rw [project_eq] at h1 h2
        rw [← h] at h2
        split at h1
        · cases h1
        · rename_i g1
          rw [if_neg g1] at h2
          split at h1
          · cases h1
          · rename_i g2
            rw [if_neg g2] at h2
            split at h1
            · cases h1
            · rename_i g3
              rw [if_neg g3] at h2
              cases h2
      | ok H2 =>
        have e1 : H1.cols = H2.cols := by
          obtain ⟨_, _, _, rfl⟩ := (project_ok_iff _ _ _ _).1 h1
          obtain ⟨_, _, _, rfl⟩ := (project_ok_iff _ _ _ _).1 h2
          rfl
        simp only [bind, Except.bind, pure, Except.pure, vstack]
        by_cases hc : H1.cols = B.nrows
        · simp [hc, ← e1, Mat.mul]
        · simp [hc, ← e1]

/-- C03 for `predict`: the predictions for stacked data are the stacked predictions. -/
theorem C03_predict_stack (env : Env K) (fs : Files K) (e : ELM K) (X1 X2 : Mat K) (h : X1.cols = X2.cols) :
    e.predict env fs (.mat (vstack X1 X2)) = (do
      let H1 ← e.predict env fs (.mat X1)
      let H2 ← e.predict env fs (.mat X2)
      pure (vstack H1 H2)) := by
  simp only [ELM.predict, checkOne, pure, Except.pure, bind, Except.bind, pyAssert]
  have e1 : (vstack X1 X2).cols = X1.cols := rfl
  by_cases h1 : X1.cols = e.nnet.inputs
  · simp only [e1, h1, h ▸ h1, decide_true, if_true]
    exact predict_vstack env e.nnet X1 X2 h
  · simp [e1, h1]

/-- C03, single rows: prediction `i` is the prediction for sample `i` alone — no other row, and not the number of rows,
has an influence — and there is exactly one per sample. -/
theorem C03_predict_row (env : Env K) (fs : Files K) (e : ELM K) (X Y : Mat K) (h : e.predict env fs (.mat X) = .ok Y) :
    Y.nrows = X.nrows ∧ ∀ (i : Nat) (x : List K), X.rows[i]? = some x →
      ∃ y, Y.rows[i]? = some y ∧ e.predict env fs (.mat ⟨X.cols, [x]⟩) = .ok ⟨Y.cols, [y]⟩ := by
  simp only [ELM.predict, checkOne, pure, Except.pure, bind, Except.bind, pyAssert] at h ⊢
  by_cases h1 : X.cols = e.nnet.inputs
  · simp only [h1, decide_true, if_true] at h ⊢
    unfold NNet.predict at h ⊢
    split at h
    · cases h
    rename_i B hB
    obtain ⟨H, hH, h⟩ := bind_ok h
    split at h
    · cases h
    rename_i hcols
    injection h with h
    subst h
    obtain ⟨p1, p2, p3, rfl⟩ := (project_ok_iff _ _ _ _).1 hH
    refine ⟨by simp [Mat.mul, Mat.nrows], ?_⟩
    intro i x hx
    refine ⟨Mat.vecMul (rowOut env e.nnet.neurons x) B, by simp [Mat.mul, hx], ?_⟩
    have : e.nnet.project env ⟨e.nnet.inputs, [x]⟩ = .ok ⟨width e.nnet.neurons, [rowOut env e.nnet.neurons x]⟩ :=
      (project_ok_iff _ _ _ _).2 ⟨rfl, p2, p3, rfl⟩
    simp only [this, bind, Except.bind, pure, Except.pure]
    simp only [ne_eq, Decidable.not_not] at hcols
    simp [hcols, Mat.mul]
  · simp [h1] at h

/-- C03 for `project`, single rows. -/
theorem C03_project_row (env : Env K) (fs : Files K) (e : ELM K) (X H : Mat K) (h : e.project env fs (.mat X) = .ok H) :
    H.nrows = X.nrows ∧ ∀ (i : Nat) (x : List K), X.rows[i]? = some x →
      ∃ y, H.rows[i]? = some y ∧ e.project env fs (.mat ⟨X.cols, [x]⟩) = .ok ⟨H.cols, [y]⟩ := by
  simp only [ELM.project, checkOne, pure, Except.pure, bind, Except.bind, pyAssert] at h ⊢
  by_cases h1 : X.cols = e.nnet.inputs
  · simp only [h1, decide_true, if_true] at h ⊢
    obtain ⟨p1, p2, p3, rfl⟩ := (project_ok_iff _ _ _ _).1 h
    refine ⟨by simp [Mat.nrows], ?_⟩
    intro i x hx
    exact ⟨rowOut env e.nnet.neurons x, by simp [hx], (project_ok_iff _ _ _ _).2 ⟨rfl, p2, p3, rfl⟩⟩
  · simp [h1] at h

/-- A trained model to which C03 applies. -/
example : ((ELM.init QEnv.env 1 1 "" none 2 none (.np .double) (some 1)).bind fun e =>
    (e.run QEnv.env (fun _ => none) [.addNeurons (fun _ => ⟨1, []⟩) (fun _ => []) 1 1 (.name "lin") none none,
      .train ⟨fun _ => []⟩ (.vec [1, 2]) (.vec [2, 4]) [] {}]).bind fun e =>
        e.predict QEnv.env (fun _ => none) (.mat ⟨1, [[3], [6]]⟩)) = .ok ⟨1, [[5], [10]]⟩ := by decide +kernel

/-! ## C04 default linear neurons copy the features -/

theorem dot_unit (x : List K) (d j : Nat) (hx : x.length = d) (hj : j < d) :
    dot x ((List.range d).map fun i => if i = j then (1 : K) else 0) = x.getD j 0 := by
  induction x generalizing d j with
  | nil => simp at hx; omega
  | cons a x ih =>
    obtain ⟨d, rfl⟩ : ∃ m, d = m + 1 := ⟨d - 1, by omega⟩
    rw [List.range_succ_eq_map]
    simp only [List.length_cons, Nat.add_right_cancel_iff] at hx
    cases j with
    | zero =>
      have hz : List.zipWith (fun (a b : K) => a * b) x ((List.range d).map ((fun i => if i = 0 then (1 : K) else 0) ∘ Nat.succ))
          = List.replicate d 0 := by
        apply List.ext_getElem
        · simp [hx]
        · intro i _ _; simp
      simp only [dot, List.map_cons, List.zipWith_cons_cons, List.sum_cons, List.map_map, if_true, mul_one, hz]
      simp
    | succ j =>
      have := ih d j hx (by omega)
      simp only [dot] at this ⊢
      have hf : ((fun i => if i = j + 1 then (1 : K) else 0) ∘ Nat.succ) = fun i => if i = j then (1 : K) else 0 := by
        funext i; simp
      simp only [List.map_cons, List.zipWith_cons_cons, List.sum_cons, List.map_map, hf, this]
      simp

/-- C04.  `add_neurons(number, "lin")` without weights adds `min(number, inputs)` neurons, and their outputs are exactly
the first `min(number, inputs)` features of every sample. -/
theorem C04_default_lin (env : Env K) (rW : Nat → Mat K) (rB : Nat → List K) (sq : K) (e : ELM K) (number : Nat)
    (h0 : env.cast e.prec 0 = 0) (h1 : env.cast e.prec 1 = 1) (hc : Consistent e.nnet) :
    ∃ e', e.addNeurons env rW rB sq number (.name "lin") none none = .ok e' ∧
      e'.nnet.L = some (size e.nnet + min number e.nnet.inputs) ∧
      ∃ new : List Nat, new.length = min number e.nnet.inputs ∧ new.Pairwise (· < ·) ∧
        ∀ X H', X.WF → e'.nnet.project env X = .ok H' →
          H'.selCols new = X.selCols (List.range (min number e.nnet.inputs)) := by
  set d := e.nnet.inputs with hd
  set k := min number d with hk
  have hcast : ((Mat.ofFn k d fun j i => if i = j then (1 : K) else 0).map (env.cast e.prec)).rows
      = (List.range k).map fun j => (List.range d).map fun i => if i = j then (1 : K) else 0 := by
    simp only [Mat.ofFn, Mat.map, List.map_map]
    apply List.map_congr_left
    intro j _
    simp only [Function.comp, List.map_map]
    apply List.map_congr_left
    intro i _
    simp only [Function.comp]
    split
    · exact h1
    · exact h0
  have hcastB : (List.replicate k (0 : K)).map (env.cast e.prec) = List.replicate k 0 := by simp [h0]
  obtain ⟨old, new, _, hp2, hp3, _, _, hp5⟩ := C02_preserve env e.nnet hc k (.name "lin")
    ((List.range k).map fun j => (List.range d).map fun i => if i = j then (1 : K) else 0) (List.replicate k 0)
    (by simp) (by simp) (by intro w hw; simp only [List.mem_map] at hw; obtain ⟨j, _, rfl⟩ := hw; simp [hd])
  refine ⟨{ e with nnet := (e.nnet.addNeurons k (.name "lin")
              ((List.range k).map fun j => (List.range d).map fun i => if i = j then (1 : K) else 0) (List.replicate k 0)) },
      ?_, ?_, new, hp3, hp2, ?_⟩
  · have hfo : funcOk (.name "lin") = true := by decide
    simp only [ELM.addNeurons, hfo, pyAssert, bind, Except.bind, pure, Except.pure, ← hd, if_true, ← hk]
    simp only [Mat.ofFn_cols, Mat.ofFn_nrows, decide_true, and_self, if_true, List.length_replicate, hcastB]
    rw [hcast]
  · have hc' := addNeurons_consistent (f := .name "lin") (k := k) (B := List.replicate k 0) hc
      (W := (List.range k).map fun j => (List.range d).map fun i => if i = j then (1 : K) else 0)
      (by simp) (by simp) (by intro w hw; simp only [List.mem_map] at hw; obtain ⟨j, _, rfl⟩ := hw; simp [hd])
    obtain ⟨P, Q, q1, q2⟩ := addNeurons_insert e.nnet hc k (.name "lin")
      ((List.range k).map fun j => (List.range d).map fun i => if i = j then (1 : K) else 0) (List.replicate k 0)
    have l1 := length_neuronList (n := e.nnet) (fun g hg => ⟨(hc.groups g hg).1, (hc.groups g hg).2.1⟩)
    have l2 := length_neuronList (fun g hg => ⟨(hc'.groups g hg).1, (hc'.groups g hg).2.1⟩)
    rw [q1] at l1
    rw [q2] at l2
    simp only [List.length_append, List.length_map, List.length_zip, List.length_range, List.length_replicate,
      Nat.min_self] at l1 l2
    change some (size (e.nnet.addNeurons k (.name "lin")
              ((List.range k).map fun j => (List.range d).map fun i => if i = j then (1 : K) else 0) (List.replicate k 0))) = _
    congr 1
    omega
  · intro X H' hX hH'
    have h2 := hp5 X H' hH'
    obtain ⟨q1, _, _, h3⟩ := (project_ok_iff _ _ _ _).1 h2
    rw [h3]
    have q1 : X.cols = d := q1
    have hrow : ∀ x ∈ X.rows, rowOut env [⟨k, .name "lin", (List.range k).map fun j => (List.range d).map fun i =>
        if i = j then (1 : K) else 0, List.replicate k 0⟩] x = (List.range k).map fun j => x.getD j 0 := by
      intro x hx
      have hxl : x.length = d := by rw [← q1]; exact hX x hx
      rw [rowOut_single env _ (fun x => List.zipWith (fun w b => dot x w + b)
        ((List.range k).map fun j => (List.range d).map fun i => if i = j then (1 : K) else 0) (List.replicate k 0)) rfl]
      apply List.ext_getElem
      · simp
      · intro j j1 j2
        simp only [List.length_map, List.length_range] at j2
        simp only [List.getElem_zipWith, List.getElem_map, List.getElem_range, List.getElem_replicate, add_zero]
        exact dot_unit x d j hxl (by omega)
    simp only [Mat.selCols, width, List.length_range]
    congr 1
    · simp
    · exact List.map_congr_left hrow

example : ((ELM.init QEnv.env 3 1 "" none 2 none (.np .double) none).bind fun e =>
    (e.run QEnv.env (fun _ => none) [.addNeurons (fun _ => ⟨3, []⟩) (fun _ => []) 1 1 (.name "tanh") (some ⟨3, [[1, 0, 0]]⟩) (some [0]),
      .addNeurons (fun _ => ⟨3, []⟩) (fun _ => []) 1 5 (.name "lin") none none]).bind fun e =>
        e.project QEnv.env (fun _ => none) (.mat ⟨3, [[1, 5, 7], [3, 6, 8]]⟩))
    = .ok ⟨4, [[1/2, 1, 5, 7], [3/4, 3, 6, 8]]⟩ := by decide +kernel

end Hpelm.Props
