import Verif.Lemmas.Slfn
import Verif.Spec.Network

/-! Helper lemmas about the network structure. -/

namespace Hpelm
variable {K : Type}
open Spec

section
variable [Field K] [LinearOrder K]

/-- Outputs of a list of neurons on a sample. -/
def outs (env : Env K) (ns : List (Func × List K × K)) (x : List K) : List K :=
  ns.map fun p => match p.1 with
    | .ufunc _ => 0
    | .name s => match act env s with
      | some a => a x p.2.1 p.2.2
      | none => 0

theorem rowOut_group (env : Env K) (g : Group K) (h : (groupAct env g).isSome) (x : List K) :
    rowOut env [g] x = outs env ((g.W.zip g.B).map fun p => (g.func, p.1, p.2)) x := by
  obtain ⟨f, hf⟩ := Option.isSome_iff_exists.1 h
  rw [rowOut_single env g f hf]
  unfold groupAct at hf
  unfold outs
  cases hg : g.func with
  | ufunc s => rw [hg] at hf; simp at hf
  | name s =>
    rw [hg] at hf
    simp only at hf
    cases ha : act env s with
    | none => rw [ha] at hf; simp at hf
    | some a =>
      rw [ha] at hf
      simp only [Option.map_some, Option.some.injEq] at hf
      subst hf
      simp only [List.map_map]
      rw [← List.map_uncurry_zip_eq_zipWith]
      apply List.map_congr_left
      intro p _
      simp [ha, Function.uncurry]

theorem rowOut_eq_outs (env : Env K) (gs : List (Group K)) (h : ∀ g ∈ gs, (groupAct env g).isSome) (x : List K) :
    rowOut env gs x = outs env (gs.flatMap fun g => (g.W.zip g.B).map fun p => (g.func, p.1, p.2)) x := by
  induction gs with
  | nil => rfl
  | cons g gs ih =>
    rw [rowOut_cons, rowOut_group env g (h g List.mem_cons_self), ih (fun g' hg' => h g' (List.mem_cons_of_mem _ hg'))]
    simp [outs]

theorem width_eq_size {n : NNet K} (h : ∀ g ∈ n.neurons, g.W.length = g.number) : width n.neurons = size n := by
  unfold width size
  congr 1
  exact List.map_congr_left h

theorem length_neuronList {n : NNet K} (h : ∀ g ∈ n.neurons, g.W.length = g.number ∧ g.B.length = g.number) :
    (neuronList n).length = size n := by
  unfold neuronList size
  rw [List.length_flatMap]
  congr 1
  apply List.map_congr_left
  intro g hg
  obtain ⟨h1, h2⟩ := h g hg
  simp [h1, h2]

/-- Projection in terms of single neurons. -/
theorem project_ok_spec {env : Env K} {n : NNet K} {X H : Mat K} (hc : Consistent n) (h : n.project env X = .ok H) :
    H = ⟨size n, X.rows.map (outs env (neuronList n))⟩ := by
  obtain ⟨_, h2, _, rfl⟩ := (project_ok_iff env n X H).1 h
  rw [width_eq_size (fun g hg => (hc.groups g hg).1)]
  congr 1
  apply List.map_congr_left
  intro x _
  exact rowOut_eq_outs env n.neurons h2 x

theorem project_isOk (env : Env K) (n : NNet K) (X : Mat K) (hc : Consistent n) (h1 : X.cols = n.inputs)
    (h2 : ∀ g ∈ n.neurons, (groupAct env g).isSome) (h3 : n.neurons ≠ []) :
    n.project env X = .ok ⟨size n, X.rows.map (outs env (neuronList n))⟩ := by
  have : n.project env X = .ok ⟨width n.neurons, X.rows.map (rowOut env n.neurons)⟩ :=
    (project_ok_iff _ _ _ _).2 ⟨h1, h2, h3, rfl⟩
  rw [this, project_ok_spec hc this]

theorem outs_length (env : Env K) (ns : List (Func × List K × K)) (x : List K) : (outs env ns x).length = ns.length := by
  simp [outs]

theorem project_WF {env : Env K} {n : NNet K} {X H : Mat K} (hc : Consistent n) (h : n.project env X = .ok H) :
    H.WF ∧ H.nrows = X.nrows ∧ H.cols = size n := by
  rw [project_ok_spec hc h]
  refine ⟨?_, by simp [Mat.nrows], rfl⟩
  intro r hr
  simp only [List.mem_map] at hr
  obtain ⟨x, _, rfl⟩ := hr
  rw [outs_length, length_neuronList (fun g hg => ⟨(hc.groups g hg).1, (hc.groups g hg).2.1⟩)]

/-- Entry of the hidden representation. -/
theorem project_entry {env : Env K} {n : NNet K} {X H : Mat K} (hc : Consistent n) (h : n.project env X = .ok H)
    {i j : Nat} (hi : i < X.nrows) {s : String} {w : List K} {b : K} (hj : (neuronList n)[j]? = some (.name s, w, b))
    {a} (ha : act env s = some a) : H.get i j = a (X.rows.getD i []) w b := by
  rw [project_ok_spec hc h]
  have hi' : i < X.rows.length := hi
  have hjl : j < (neuronList n).length := by
    by_contra hcon
    rw [List.getElem?_eq_none (by omega)] at hj
    cases hj
  rw [List.getElem?_eq_getElem hjl] at hj
  injection hj with hj
  simp [Mat.get, outs, List.getD_eq_getElem?_getD, hi', hjl, hj, ha]

/-! ### addGroup -/

theorem addGroup_spec (gs : List (Group K)) (k : Nat) (f : Func) (W : List (List K)) (B : List K) :
    (∃ pre g post, gs = pre ++ g :: post ∧ g.func = f ∧ (∀ g' ∈ pre, g'.func ≠ f) ∧
      addGroup gs k f W B = pre ++ ⟨g.number + k, f, g.W ++ W, g.B ++ B⟩ :: post) ∨
    ((∀ g ∈ gs, g.func ≠ f) ∧ addGroup gs k f W B = gs ++ [⟨k, f, W, B⟩]) := by
  induction gs with
  | nil => right; exact ⟨by simp, rfl⟩
  | cons g gs ih =>
    by_cases h : g.func = f
    · left
      exact ⟨[], g, gs, rfl, h, by simp, by simp [addGroup, h]⟩
    · rcases ih with ⟨pre, g', post, rfl, h1, h2, h3⟩ | ⟨h1, h2⟩
      · left
        refine ⟨g :: pre, g', post, rfl, h1, ?_, ?_⟩
        · intro x hx
          rcases List.mem_cons.1 hx with rfl | hx
          · exact h
          · exact h2 x hx
        · simp [addGroup, h, h3]
      · right
        refine ⟨?_, by simp [addGroup, h, h2]⟩
        intro x hx
        rcases List.mem_cons.1 hx with rfl | hx
        · exact h
        · exact h1 x hx

theorem addGroup_addGroup (gs : List (Group K)) (k1 k2 : Nat) (f : Func) (W1 W2 : List (List K)) (B1 B2 : List K) :
    addGroup (addGroup gs k1 f W1 B1) k2 f W2 B2 = addGroup gs (k1 + k2) f (W1 ++ W2) (B1 ++ B2) := by
  induction gs with
  | nil => simp [addGroup]
  | cons g gs ih =>
    by_cases h : g.func = f
    · simp [addGroup, h, Nat.add_assoc]
    · simp [addGroup, h, ih]

theorem addNeurons_consistent {n : NNet K} (hc : Consistent n) {k : Nat} {f : Func} {W : List (List K)} {B : List K}
    (hW : W.length = k) (hB : B.length = k) (hw : ∀ w ∈ W, w.length = n.inputs) :
    Consistent (n.addNeurons k f W B) := by
  refine ⟨?_, ?_, Or.inl ?_, ?_, ?_⟩
  · simp only [NNet.addNeurons, NNet.reset]
    intro g hg
    rcases addGroup_spec n.neurons k f W B with ⟨pre, g0, post, h1, h2, h3, h4⟩ | ⟨h1, h2⟩
    · rw [h4] at hg
      have hg0 := hc.groups g0 (by rw [h1]; simp)
      simp only [List.mem_append, List.mem_cons] at hg
      rcases hg with hg | rfl | hg
      · exact hc.groups g (by rw [h1]; simp [hg])
      · refine ⟨by simp [hg0.1, hW], by simp [hg0.2.1, hB], ?_⟩
        intro w hw'
        rcases List.mem_append.1 hw' with h | h
        · exact hg0.2.2 w h
        · exact hw w h
      · exact hc.groups g (by rw [h1]; simp [hg])
    · rw [h2] at hg
      rcases List.mem_append.1 hg with hg | hg
      · exact hc.groups g hg
      · simp only [List.mem_singleton] at hg
        subst hg
        exact ⟨hW, hB, hw⟩
  · simp only [NNet.addNeurons, NNet.reset]
    have ht := hc.types
    rcases addGroup_spec n.neurons k f W B with ⟨pre, g0, post, h1, h2, h3, h4⟩ | ⟨h1, h2⟩
    · rw [h4]
      rw [h1] at ht
      simpa [h2] using ht
    · rw [h2]
      simp only [List.map_append, List.map_cons, List.map_nil]
      rw [List.nodup_append]
      refine ⟨ht, by simp, ?_⟩
      intro a ha b hb
      simp only [List.mem_map] at ha
      obtain ⟨g, hg, rfl⟩ := ha
      simp only [List.mem_singleton] at hb
      subst hb
      exact h1 g hg
  · rfl
  · intro B' hB'; simp [NNet.addNeurons] at hB'
  · intro HH HT h; simp [NNet.addNeurons, NNet.reset] at h

/-! ### prune -/

theorem pruneGroups_mem {gs : List (Group K)} {idx : List Nat} {d : Nat}
    (hgs : ∀ g ∈ gs, g.W.length = g.number ∧ g.B.length = g.number ∧ ∀ w ∈ g.W, w.length = d) :
    ∀ g ∈ pruneGroups gs idx, g.W.length = g.number ∧ g.B.length = g.number ∧ ∀ w ∈ g.W, w.length = d := by
  induction gs generalizing idx with
  | nil => simp [pruneGroups]
  | cons g gs ih =>
    intro g' hg'
    simp only [pruneGroups, List.mem_cons] at hg'
    rcases hg' with rfl | hg'
    · refine ⟨by simp, by simp, ?_⟩
      intro w hw
      simp only [List.mem_map, List.mem_filter, decide_eq_true_eq] at hw
      obtain ⟨i, ⟨_, hi⟩, rfl⟩ := hw
      obtain ⟨h1, _, h3⟩ := hgs g List.mem_cons_self
      apply h3
      rw [List.getD_eq_getElem?_getD, List.getElem?_eq_getElem (by omega)]
      exact List.getElem_mem _
    · exact ih (fun x hx => hgs x (List.mem_cons_of_mem _ hx)) g' hg'

theorem pruneGroups_funcs (gs : List (Group K)) (idx : List Nat) :
    (pruneGroups gs idx).map (·.func) = gs.map (·.func) := by
  induction gs generalizing idx with
  | nil => rfl
  | cons g gs ih => simp [pruneGroups, ih]

theorem prune_consistent {n : NNet K} (hc : Consistent n) (idx : List Nat) : Consistent (n.prune idx) := by
  refine ⟨?_, ?_, Or.inl rfl, ?_, ?_⟩
  · simp only [NNet.prune, NNet.reset]
    exact pruneGroups_mem hc.groups
  · simp only [NNet.prune, NNet.reset]
    rw [pruneGroups_funcs]; exact hc.types
  · intro B' hB'; simp [NNet.prune] at hB'
  · intro HH HT h; simp [NNet.prune, NNet.reset] at h

theorem byType_shift (ks : List Nat) (s k : Nat) (idx : List Nat) :
    byType ks (s + k) idx = (byType ks s ((idx.filter (k ≤ ·)).map (· - k))).map (· + k) := by
  induction ks generalizing s with
  | nil => rfl
  | cons m ks ih =>
    simp only [byType, List.map_append]
    congr 1
    · rw [List.filter_map, List.map_map, List.filter_filter]
      have hcongr : idx.filter (fun i => decide (s + k ≤ i ∧ i < s + k + m))
          = idx.filter (fun a => ((fun i => decide (s ≤ i ∧ i < s + m)) ∘ fun x => x - k) a && decide (k ≤ a)) := by
        apply List.filter_congr
        intro i _
        simp only [Function.comp]
        rw [Bool.eq_iff_iff]
        simp only [decide_eq_true_eq, Bool.and_eq_true]
        omega
      rw [hcongr]
      conv_lhs => rw [← List.map_id (List.filter _ _)]
      apply List.map_congr_left
      intro i hi
      simp only [List.mem_filter, Bool.and_eq_true, decide_eq_true_eq] at hi
      simp only [id, Function.comp]
      omega
    · rw [show s + k + m = (s + m) + k by omega, ih]

theorem prune_neurons {gs : List (Group K)} {d : Nat} (idx : List Nat)
    (hgs : ∀ g ∈ gs, g.W.length = g.number ∧ g.B.length = g.number ∧ ∀ w ∈ g.W, w.length = d) :
    (pruneGroups gs idx).flatMap (fun g => (g.W.zip g.B).map fun p => (g.func, p.1, p.2))
      = (byType (gs.map (·.number)) 0 idx).map
          fun i => (gs.flatMap (fun g => (g.W.zip g.B).map fun p => (g.func, p.1, p.2))).getD i (.name "", [], 0) := by
  induction gs generalizing idx with
  | nil => rfl
  | cons g gs ih =>
    obtain ⟨h1, h2, _⟩ := hgs g List.mem_cons_self
    simp only [pruneGroups, List.flatMap_cons, List.map_cons, byType, List.map_append, Nat.zero_le, true_and, Nat.zero_add]
    congr 1
    · rw [List.zip_map', List.map_map]
      apply List.map_congr_left
      intro i hi
      simp only [List.mem_filter, decide_eq_true_eq] at hi
      have : i < (g.W.zip g.B).length := by simp [h1, h2]; omega
      simp only [Function.comp]
      rw [show ∀ (l1 l2 : List (Func × List K × K)) (j : Nat) (d), j < l1.length → (l1 ++ l2).getD j d = l1.getD j d from
        fun l1 l2 j d h => by simp [List.getD_eq_getElem?_getD, List.getElem?_append_left h]]
      swap
      · simpa using this
      simp [List.getD_eq_getElem?_getD, h1, h2, hi.2]
    · rw [ih _ (fun x hx => hgs x (List.mem_cons_of_mem _ hx))]
      have := byType_shift (gs.map (·.number)) 0 g.number idx
      rw [Nat.zero_add] at this
      rw [this, List.map_map]
      apply List.map_congr_left
      intro i hi
      simp only [Function.comp]
      have hl : g.number = ((g.W.zip g.B).map fun p => (g.func, p.1, p.2)).length := by simp [h1, h2]
      rw [hl, show ∀ (l1 l2 : List (Func × List K × K)) (j : Nat) (d), (l1 ++ l2).getD (j + l1.length) d = l2.getD j d from
        fun l1 l2 j d => by simp [List.getD_eq_getElem?_getD, List.getElem?_append_right]]

end
end Hpelm
