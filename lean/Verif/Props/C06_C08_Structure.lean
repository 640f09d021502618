import Verif.Props.C02_C04_Network

/-!
# C06, C07, C08 — accepted neuron types, structural changes, pruning
-/

namespace Hpelm.Props
open Hpelm Spec
variable {K : Type} [Field K] [LinearOrder K]

/-! ## C06 accepted neuron types are usable -/

/-- C06 as stated is false: a NumPy ufunc is accepted as a neuron type, and afterwards no data whatsoever can be
projected (`KeyError`).  For every number system and every environment. -/
theorem C06_accepted_usable_refuted (env : Env K) :
    ¬ ∀ (e0 e : ELM K) (number : Nat) (func : Func) (W : Mat K) (B : List K) (X : Mat K),
        ELM.init env 1 1 "" none 1 none (.np .double) none = .ok e0 →
        e0.addNeurons env (fun _ => ⟨1, []⟩) (fun _ => []) 1 number func (some W) (some B) = .ok e →
        X.cols = 1 → ∃ H, e.project env (fun _ => none) (.mat X) = .ok H := by
  intro h
  obtain ⟨H, hH⟩ := h
    { nnet := NNet.init env .python 1 1 none .double, batch := 1, prec := .double, accelerator := none, classification := none,
      wc := none, rankingOP := false, kmaxOp := none }
    { nnet := (NNet.init env .python 1 1 none .double).addNeurons 1 (.ufunc "sin") [[env.cast .double 1]] [env.cast .double 0],
      batch := 1, prec := .double, accelerator := none, classification := none,
      wc := none, rankingOP := false, kmaxOp := none }
    1 (.ufunc "sin") ⟨1, [[1]]⟩ [0] ⟨1, [[1]]⟩ rfl rfl rfl
  cases hH

/-- The neuron types of the network are all among the documented names. -/
def NamedTypes (n : NNet K) : Prop := ∀ g ∈ n.neurons, ∃ s ∈ flist, g.func = .name s

theorem named_of_funcs {n n' : NNet K} (h : n'.neurons.map (·.func) = n.neurons.map (·.func)) (hn : NamedTypes n) :
    NamedTypes n' := by
  intro g hg
  have : g.func ∈ n.neurons.map (·.func) := by rw [← h]; exact List.mem_map_of_mem hg
  obtain ⟨g', hg', he⟩ := List.mem_map.1 this
  obtain ⟨s, hs, he'⟩ := hn g' hg'
  exact ⟨s, hs, by rw [← he]; exact he'⟩

theorem named_act {env : Env K} {n : NNet K} (hn : NamedTypes n) : ∀ g ∈ n.neurons, (groupAct env g).isSome := by
  intro g hg
  obtain ⟨s, hs, he⟩ := hn g hg
  unfold groupAct
  rw [he]
  simp only [flist, List.mem_cons, List.not_mem_nil, or_false] at hs
  rcases hs with rfl | rfl | rfl | rfl | rfl | rfl <;> simp [act]

/-- Calls that only use documented neuron type names (and no `load`). -/
def NamedOp : Op K → Prop
  | .addNeurons _ _ _ _ func _ _ => ∃ s, func = .name s
  | .load _ => False
  | _ => True

/-- What a call does to the list of neuron types, for every call except `load`. -/
theorem step_named {env : Env K} {fs : Files K} {acc : Option String} {e e' : ELM K} {op : Op K} (hn : NamedTypes e.nnet)
    (ha : ArgsOk acc op) (ho : NamedOp op) (h : e.step env fs op = .ok e') :
    NamedTypes e'.nnet ∧ (e.nnet.neurons ≠ [] → e'.nnet.neurons ≠ []) ∧ e'.nnet.inputs = e.nnet.inputs ∧
      ((∃ rW rB sq k f W B, op = .addNeurons rW rB sq k f W B) → e'.nnet.neurons ≠ []) := by
  have key : NFrame e.nnet e'.nnet → NamedTypes e'.nnet ∧ (e.nnet.neurons ≠ [] → e'.nnet.neurons ≠ []) ∧
      e'.nnet.inputs = e.nnet.inputs := by
    intro hf
    refine ⟨named_of_funcs hf.funcs hn, ?_, hf.inputs⟩
    intro hne hne'
    have := hf.funcs
    rw [hne'] at this
    simp only [List.map_nil] at this
    exact hne (List.map_eq_nil_iff.1 this.symm)
  cases op with
  | addNeurons randW randB sq number func W B =>
    obtain ⟨k, W', B', rfl, hok, h1, h2, h3⟩ := elmAddNeurons_nnet ha.1 ha.2 h
    obtain ⟨s, rfl⟩ := ho
    have hs : s ∈ flist := by simpa [funcOk] using hok
    have hne : (e.nnet.addNeurons k (.name s) W' B').neurons ≠ [] := by
      simp only [NNet.addNeurons, NNet.reset]
      rcases addGroup_spec e.nnet.neurons k (.name s) W' B' with ⟨pre, g, post, _, _, _, h4⟩ | ⟨_, h2⟩
      · rw [h4]; simp
      · rw [h2]; simp
    refine ⟨?_, fun _ => hne, rfl, fun _ => hne⟩
    intro g hg
    simp only [NNet.addNeurons, NNet.reset] at hg
    rcases addGroup_spec e.nnet.neurons k (.name s) W' B' with ⟨pre, g0, post, h5, _, _, h4⟩ | ⟨_, h2⟩
    · rw [h4] at hg
      simp only [List.mem_append, List.mem_cons] at hg
      rcases hg with hg | rfl | hg
      · exact hn g (by rw [h5]; simp [hg])
      · exact ⟨s, hs, rfl⟩
      · exact hn g (by rw [h5]; simp [hg])
    · rw [h2] at hg
      rcases List.mem_append.1 hg with hg | hg
      · exact hn g hg
      · simp only [List.mem_singleton] at hg
        subst hg
        exact ⟨s, hs, rfl⟩
  | addData X T =>
    obtain ⟨k1, k2, k3⟩ := key (addData_frame h).nnet
    exact ⟨k1, k2, k3, by rintro ⟨_, _, _, _, _, _, _, h⟩; cases h⟩
  | addBatch X T wc =>
    obtain ⟨n, hn', h⟩ := bind_ok h
    injection h with h
    rw [← h] at key ⊢
    obtain ⟨k1, k2, k3⟩ := key (addBatch_frame hn')
    exact ⟨k1, k2, k3, by rintro ⟨_, _, _, _, _, _, _, h⟩; cases h⟩
  | reset =>
    injection h with h
    rw [← h] at key ⊢
    obtain ⟨k1, k2, k3⟩ := key (reset_frame _)
    exact ⟨k1, k2, k3, by rintro ⟨_, _, _, _, _, _, _, h⟩; cases h⟩
  | prune idx =>
    injection h with h
    rw [← h] at key ⊢
    obtain ⟨k1, k2, k3⟩ := key (prune_frame _ _)
    exact ⟨k1, k2, k3, by rintro ⟨_, _, _, _, _, _, _, h⟩; cases h⟩
  | setB B =>
    obtain ⟨n, hn', h⟩ := bind_ok h
    injection h with h
    rw [← h] at key ⊢
    obtain ⟨k1, k2, k3⟩ := key (setB_frame hn')
    exact ⟨k1, k2, k3, by rintro ⟨_, _, _, _, _, _, _, h⟩; cases h⟩
  | setCorr HH HT =>
    obtain ⟨n, hn', h⟩ := bind_ok h
    injection h with h
    rw [← h] at key ⊢
    obtain ⟨k1, k2, k3⟩ := key (setCorr_frame hn')
    exact ⟨k1, k2, k3, by rintro ⟨_, _, _, _, _, _, _, h⟩; cases h⟩
  | solve =>
    obtain ⟨n, hn', h⟩ := bind_ok h
    injection h with h
    rw [← h] at key ⊢
    obtain ⟨k1, k2, k3⟩ := key (solve_frame hn')
    exact ⟨k1, k2, k3, by rintro ⟨_, _, _, _, _, _, _, h⟩; cases h⟩
  | train rnd X T args kw =>
    have h2 := train_frame env fs rnd e X T args kw
    simp only [ELM.step] at h
    split at h
    · rename_i heq
      rw [heq] at h2
      injection h with h
      rw [← h] at key ⊢
      obtain ⟨k1, k2, k3⟩ := key h2.nnet
      exact ⟨k1, k2, k3, by rintro ⟨_, _, _, _, _, _, _, h⟩; cases h⟩
    · cases h
  | load m => exact ho.elim

theorem run_named {env : Env K} (hs : Shapes env) {fs : Files K} {acc : Option String} (ops : List (Op K)) {e e' : ELM K}
    (hacc : e.accelerator = acc) (hc : Consistent e.nnet)
    (hn : NamedTypes e.nnet) (ha : ∀ op ∈ ops, ArgsOk acc op) (ho : ∀ op ∈ ops, NamedOp op) (h : e.run env fs ops = .ok e') :
    NamedTypes e'.nnet ∧ Consistent e'.nnet ∧ e'.nnet.inputs = e.nnet.inputs ∧
      ((e.nnet.neurons ≠ [] ∨ ∃ rW rB sq k f W B, Op.addNeurons rW rB sq k f W B ∈ ops) → e'.nnet.neurons ≠ []) := by
  induction ops generalizing e with
  | nil => injection h with h; subst h; exact ⟨hn, hc, rfl, by simp⟩
  | cons op ops ih =>
    obtain ⟨e1, h1, h⟩ := bind_ok h
    obtain ⟨c1, a1⟩ := step_consistent hs hc (by rw [hacc]; exact ha op List.mem_cons_self) h1
    obtain ⟨s1, s2, s3, s4⟩ := step_named hn (ha op List.mem_cons_self) (ho op List.mem_cons_self) h1
    obtain ⟨r1, r2, r3, r4⟩ := ih (a1.trans hacc) c1 s1 (fun o h => ha o (List.mem_cons_of_mem _ h))
      (fun o h => ho o (List.mem_cons_of_mem _ h)) h
    refine ⟨r1, r2, r3.trans s3, ?_⟩
    rintro (hne | ⟨rW, rB, sq, k, f, W, B, hm⟩)
    · exact r4 (Or.inl (s2 hne))
    · rcases List.mem_cons.1 hm with heq | hm
      · exact r4 (Or.inl (s4 ⟨rW, rB, sq, k, f, W, B, heq.symm⟩))
      · exact r4 (Or.inr ⟨rW, rB, sq, k, f, W, B, hm⟩)

/-- C06, the part that holds: for the six documented type names.  After any history of successful calls that adds
neurons at least once (types given by name), every data set with the right number of features can be projected, and the
result has one row per sample and one column per neuron.  (Missing: ufunc types, for which the claim is false.) -/
theorem C06_accepted_usable_partial (env : Env K) (hs : Shapes env) (fs : Files K) {inputs outputs : Nat} {cls : String}
    {w : Option (List K)} {batch : Int} {acc : Option String} {prec : PrecArg} {norm : Option K} {e0 e : ELM K}
    (h0 : ELM.init env inputs outputs cls w batch acc prec norm = .ok e0)
    (ops : List (Op K)) (ha : ∀ op ∈ ops, ArgsOk acc op) (ho : ∀ op ∈ ops, NamedOp op)
    (hadd : ∃ rW rB sq k f W B, Op.addNeurons rW rB sq k f W B ∈ ops) (h : e0.run env fs ops = .ok e)
    (X : Mat K) (hX : X.cols = inputs) :
    ∃ H, e.project env fs (.mat X) = .ok H ∧ H.WF ∧ H.nrows = X.nrows ∧ some H.cols = e.nnet.L := by
  have hinit : e0.accelerator = acc ∧ e0.nnet.neurons = [] ∧ e0.nnet.inputs = inputs := by
    unfold ELM.init at h0
    obtain ⟨_, _, h0⟩ := bind_ok h0
    simp only at h0
    split at h0
    · obtain ⟨_, _, h0⟩ := bind_ok h0
      injection h0 with h0
      rw [← h0]
      exact ⟨rfl, rfl, rfl⟩
    · injection h0 with h0
      rw [← h0]
      exact ⟨rfl, rfl, rfl⟩
  obtain ⟨r1, r2, r3, r4⟩ := run_named hs ops hinit.1 (elmInit_consistent h0)
    (by intro g hg; rw [hinit.2.1] at hg; cases hg) ha ho h
  have hne := r4 (Or.inr hadd)
  have hin : X.cols = e.nnet.inputs := by rw [hX, r3, hinit.2.2]
  have hp := project_isOk env e.nnet X r2 hin (named_act r1) hne
  refine ⟨_, ?_, (project_WF r2 hp).1, (project_WF r2 hp).2.1, ?_⟩
  · simp only [ELM.project, checkOne, pure, Except.pure, bind, Except.bind, pyAssert, hin, decide_true, if_true]
    exact hp
  · rw [(project_WF r2 hp).2.2, L_of_ne r2 hne]

/-- The history of the C01 example meets the hypotheses of `C06_accepted_usable_partial`. -/
example : (∀ op ∈ c01ops, NamedOp op) ∧ ∃ rW rB sq k f W B, Op.addNeurons rW rB sq k f W B ∈ c01ops := by
  refine ⟨?_, ⟨_, _, _, _, _, _, _, List.mem_cons_self⟩⟩
  intro op hop
  simp only [c01ops, List.mem_cons, List.not_mem_nil, or_false] at hop
  rcases hop with rfl | rfl | rfl | rfl | rfl <;> simp [NamedOp]

/-! ## C07 a structural change invalidates the solution -/

/-- Calls that neither compute nor assign output weights. -/
def NoWeights : Op K → Prop
  | .addNeurons .. | .addData .. | .addBatch .. | .reset | .prune .. | .setCorr .. => True
  | _ => False

theorem step_noB {env : Env K} {fs : Files K} {e e' : ELM K} {op : Op K} (hB : e.nnet.B = none) (ho : NoWeights op)
    (h : e.step env fs op = .ok e') : e'.nnet.B = none := by
  cases op with
  | addNeurons randW randB sq number func W B =>
    simp only [ELM.step, ELM.addNeurons] at h
    obtain ⟨_, _, h⟩ := bind_ok h
    obtain ⟨_, _, h⟩ := bind_ok h
    obtain ⟨_, _, h⟩ := bind_ok h
    injection h with h
    rw [← h]
    rfl
  | addData X T =>
    obtain ⟨c, rfl⟩ := addData_fields h
    exact hB
  | addBatch X T wc =>
    obtain ⟨n, hn', h⟩ := bind_ok h
    injection h with h
    rw [← h]
    obtain ⟨c, rfl⟩ := addBatch_fields hn'
    exact hB
  | reset => injection h with h; rw [← h]; exact hB
  | prune idx => injection h with h; rw [← h]; rfl
  | setCorr HH HT =>
    obtain ⟨n, hn', h⟩ := bind_ok h
    injection h with h
    rw [← h]
    unfold NNet.setCorr at hn'
    obtain ⟨_, _, hn'⟩ := bind_ok hn'
    obtain ⟨_, _, hn'⟩ := bind_ok hn'
    obtain ⟨_, _, hn'⟩ := bind_ok hn'
    obtain ⟨_, _, hn'⟩ := bind_ok hn'
    injection hn' with hn'
    rw [← hn']
    exact hB
  | setB B => exact ho.elim
  | solve => exact ho.elim
  | train rnd X T args kw => exact ho.elim
  | load m => exact ho.elim

/-- C07.  Right after neurons are added or pruned nothing of the earlier solution is left: the accumulated correlation
matrices are gone (solving raises), and `predict` raises for every argument — an assertion error if the data has the right
number of features — and keeps doing so through any further calls until weights are computed or assigned. -/
theorem C07_structure_invalidates (env : Env K) (fs : Files K) (e e1 e2 : ELM K) (op : Op K)
    (hop : (∃ rW rB sq k f W B, op = .addNeurons rW rB sq k f W B) ∨ ∃ idx, op = .prune idx)
    (h1 : e.step env fs op = .ok e1) (ops : List (Op K)) (ho : ∀ o ∈ ops, NoWeights o) (h2 : e1.run env fs ops = .ok e2) :
    e1.nnet.corr = none ∧ e1.nnet.solve env = .error .typeError ∧
      (∀ X, X.cols = e2.nnet.inputs → e2.predict env fs (.mat X) = .error .assertion) ∧
      (∀ a, ∃ x, e2.predict env fs a = .error x) := by
  have hfirst : e1.nnet.B = none ∧ e1.nnet.corr = none := by
    rcases hop with ⟨rW, rB, sq, k, f, W, B, rfl⟩ | ⟨idx, rfl⟩
    · simp only [ELM.step, ELM.addNeurons] at h1
      obtain ⟨_, _, h1⟩ := bind_ok h1
      obtain ⟨_, _, h1⟩ := bind_ok h1
      obtain ⟨_, _, h1⟩ := bind_ok h1
      injection h1 with h1
      rw [← h1]
      exact ⟨rfl, rfl⟩
    · injection h1 with h1
      rw [← h1]
      exact ⟨rfl, rfl⟩
  have hB : e2.nnet.B = none := by
    clear h1
    have hB1 := hfirst.1
    clear hfirst
    induction ops generalizing e1 with
    | nil => injection h2 with h2; rw [← h2]; exact hB1
    | cons o ops ih =>
      obtain ⟨e', h', h2⟩ := bind_ok h2
      exact ih e' (fun x hx => ho x (List.mem_cons_of_mem _ hx)) h2 (step_noB hB1 (ho o List.mem_cons_self) h')
  refine ⟨hfirst.2, by simp [NNet.solve, hfirst.2], ?_, ?_⟩
  · intro X hX
    simp [ELM.predict, checkOne, hX, pyAssert, NNet.predict, hB, bind, Except.bind, pure, Except.pure]
  · intro a
    unfold ELM.predict
    cases h : checkOne fs e2.nnet.inputs a with
    | error x => exact ⟨x, rfl⟩
    | ok r =>
      cases r with
      | none => exact ⟨_, rfl⟩
      | some X => exact ⟨.assertion, by simp [bind, Except.bind, NNet.predict, hB]⟩

/-- A trained model that can predict; after pruning to one neuron and feeding more data it refuses. -/
example :
    let r := (ELM.init QEnv.env 1 1 "" none 2 none (.np .double) (some 1)).bind fun e =>
      e.run QEnv.env (fun _ => none) [.addNeurons (fun _ => ⟨1, []⟩) (fun _ => []) 1 1 (.name "lin") none none,
        .addNeurons (fun _ => ⟨1, []⟩) (fun _ => []) 1 1 (.name "tanh") (some ⟨1, [[1]]⟩) (some [0]),
        .train ⟨fun _ => []⟩ (.vec [1, 2]) (.vec [2, 4]) [] {}]
    let r2 := r.bind fun e => e.run QEnv.env (fun _ => none) [.prune [0], .addData ⟨1, [[1]]⟩ ⟨1, [[1]]⟩]
    ((r.bind fun e => e.predict QEnv.env (fun _ => none) (.vec [3])).isOk,
      r2.bind fun e => e.predict QEnv.env (fun _ => none) (.vec [3])) = (true, .error .assertion) := by decide +kernel

/-! ## C08 pruning keeps exactly the selected neurons -/

theorem byType_perm (ks : List Nat) (s : Nat) (idx : List Nat) :
    (byType ks s idx).Perm (idx.filter fun i => s ≤ i ∧ i < s + ks.sum) := by
  induction ks generalizing s with
  | nil =>
    simp only [byType, List.sum_nil, Nat.add_zero]
    rw [List.filter_eq_nil_iff.2]
    intro i _
    intro h
    have := of_decide_eq_true h
    omega
  | cons k ks ih =>
    simp only [byType, List.sum_cons]
    refine List.Perm.trans (List.Perm.append_left _ (ih (s + k))) ?_
    have h1 : idx.filter (fun i => decide (s ≤ i ∧ i < s + k))
        = (idx.filter fun i => decide (s ≤ i ∧ i < s + (k + ks.sum))).filter fun i => decide (i < s + k) := by
      rw [List.filter_filter]
      apply List.filter_congr
      intro i _
      rw [Bool.eq_iff_iff]
      simp only [decide_eq_true_eq, Bool.and_eq_true]
      omega
    have h2 : idx.filter (fun i => decide (s + k ≤ i ∧ i < s + k + ks.sum))
        = (idx.filter fun i => decide (s ≤ i ∧ i < s + (k + ks.sum))).filter fun i => !decide (i < s + k) := by
      rw [List.filter_filter]
      apply List.filter_congr
      intro i _
      rw [Bool.eq_iff_iff]
      simp only [decide_eq_true_eq, Bool.and_eq_true, Bool.not_eq_true', decide_eq_false_iff_not]
      omega
    rw [h1, h2]
    exact List.filter_append_perm _ _

/-- C08.  Pruning to the neurons `idx` (any list of neuron numbers): let `keep` be `idx` regrouped by neuron type (types in
their old order, within a type in the order of `idx`).  Then `keep` is a rearrangement of `idx` (numbers that are not neurons
are ignored), the new network consists of exactly those neurons with their weights and biases, its size is the length of
`keep`, and its hidden representation of any data is the old one restricted to the columns `keep`. -/
theorem C08_prune (env : Env K) (n : NNet K) (hc : Consistent n) (idx : List Nat) :
    let keep := byType (n.neurons.map (·.number)) 0 idx
    keep.Perm (idx.filter (· < size n)) ∧
    neuronList (n.prune idx) = keep.map (fun i => (neuronList n).getD i (.name "", [], 0)) ∧
    (n.prune idx).L = some keep.length ∧
    ∀ X H, n.project env X = .ok H → (n.prune idx).project env X = .ok (H.selCols keep) := by
  intro keep
  have hk : neuronList (n.prune idx) = keep.map (fun i => (neuronList n).getD i (.name "", [], 0)) :=
    prune_neurons idx hc.groups
  have hcp := prune_consistent hc idx
  have hsz : size (n.prune idx) = keep.length := by
    rw [← length_neuronList (fun g hg => ⟨(hcp.groups g hg).1, (hcp.groups g hg).2.1⟩), hk, List.length_map]
  have hperm : keep.Perm (idx.filter (· < size n)) := by
    have := byType_perm (n.neurons.map (·.number)) 0 idx
    refine this.trans (List.Perm.of_eq (List.filter_congr fun i _ => ?_))
    rw [Bool.eq_iff_iff]
    have hs : size n = (n.neurons.map (·.number)).sum := rfl
    constructor
    · intro h; have := (of_decide_eq_true h).2; exact decide_eq_true (by rw [hs]; omega)
    · intro h; exact decide_eq_true ⟨Nat.zero_le _, by have := of_decide_eq_true h; omega⟩
  refine ⟨hperm, hk, ?_, ?_⟩
  · have : (n.prune idx).L = some (size (n.prune idx)) := rfl
    rw [this, hsz]
  · intro X H hH
    obtain ⟨p1, p2, p3, _⟩ := (project_ok_iff env n X H).1 hH
    have hf : (n.prune idx).neurons.map (·.func) = n.neurons.map (·.func) := pruneGroups_funcs _ _
    have hact : ∀ g ∈ (n.prune idx).neurons, (groupAct env g).isSome := by
      intro g hg
      have : g.func ∈ n.neurons.map (·.func) := by rw [← hf]; exact List.mem_map_of_mem hg
      obtain ⟨g', hg', he⟩ := List.mem_map.1 this
      have := p2 g' hg'
      unfold groupAct at this ⊢
      rw [he] at this
      cases hs : g.func with
      | ufunc s => simp [hs] at this
      | name s =>
        simp only [hs] at this ⊢
        cases hh : act env s <;> simp_all
    have hne : (n.prune idx).neurons ≠ [] := by
      intro h
      rw [h] at hf
      exact p3 (List.map_eq_nil_iff.1 hf.symm)
    rw [project_isOk env (n.prune idx) X hcp p1 hact hne, hsz, project_ok_spec hc hH, hk]
    simp only [Mat.selCols, List.map_map]
    congr 2
    apply List.map_congr_left
    intro x _
    simp only [Function.comp, outs, List.map_map]
    apply List.map_congr_left
    intro i hi
    have hi' : i < (neuronList n).length := by
      rw [length_neuronList (fun g hg => ⟨(hc.groups g hg).1, (hc.groups g hg).2.1⟩)]
      have := (List.mem_filter.1 (hperm.mem_iff.1 hi)).2
      simpa using this
    simp [List.getD_eq_getElem?_getD, hi']

/-- Pruning to neurons 3, 0, 2 of a network with two `lin` and two `tanh` neurons: kept in the order 0 | 3, 2. -/
example :
    let n := ((NNet.init QEnv.env .python 1 1 none .double).addNeurons 2 (.name "lin") [[2], [3]] [1, 1]).addNeurons 2 (.name "tanh") [[1], [3]] [0, 0]
    (byType (n.neurons.map (·.number)) 0 [3, 0, 2], n.project QEnv.env ⟨1, [[1]]⟩, (n.prune [3, 0, 2]).project QEnv.env ⟨1, [[1]]⟩)
      = ([0, 3, 2], .ok ⟨4, [[3, 4, 1/2, 3/4]]⟩, .ok ⟨3, [[3, 3/4, 1/2]]⟩) := by decide +kernel

end Hpelm.Props
