import Verif.Model.Describe
import Verif.Props.C34_C35_CrossValidation

/-!
# C103 — the printed description of a model tells its make-up
-/

set_option linter.unusedSectionVars false

namespace Hpelm.Props
open Hpelm Spec
variable {K : Type} [Field K] [LinearOrder K]

/-- Neuron types that `add_neurons` accepts: the documented names, and NumPy functions (their names contain no comma). -/
def UsualType : Func → Prop
  | .name s => s ∈ ["lin", "sigm", "tanh", "rbf_l1", "rbf_l2", "rbf_linf"]
  | .ufunc s => ',' ∉ s.toList

/-- What the description is about: the numbers of inputs and outputs, and for every neuron type, in order, how many there are. -/
def makeup (n : NNet K) : Nat × Nat × List (Nat × Func) := (n.inputs, n.outputs, n.neurons.map fun g => (g.number, g.func))

theorem fmtD_inj {a b : Nat} (h : fmtD a = fmtD b) : a = b := by
  have h1 := Nat.ofDigitChars_ten_toDigits (n := a)
  have h2 := Nat.ofDigitChars_ten_toDigits (n := b)
  unfold fmtD at h
  rw [h, h2] at h1
  exact h1.symm

theorem fmtD_digit {a : Nat} {c : Char} (h : c ∈ fmtD a) : c.isDigit = true := Nat.isDigit_of_mem_toDigits (by decide) (by decide) h

/-- Two texts without the character `c`, each followed by `c`: the texts are the same and so is what follows. -/
theorem split_at {α : Type} {c : α} {a b x y : List α} (ha : c ∉ a) (hb : c ∉ b) (h : a ++ c :: x = b ++ c :: y) : a = b ∧ x = y := by
  induction a generalizing b with
  | nil =>
    cases b with
    | nil => simp at h; exact ⟨rfl, h⟩
    | cons d b => simp at h; exact absurd (by rw [h.1]; simp) hb
  | cons d a ih =>
    cases b with
    | nil => simp at h; exact absurd (by rw [h.1]; simp) ha
    | cons d' b =>
      simp only [List.cons_append, List.cons.injEq] at h
      obtain ⟨h1, h2⟩ := ih (fun hm => ha (List.mem_cons_of_mem _ hm)) (fun hm => hb (List.mem_cons_of_mem _ hm)) h.2
      exact ⟨by rw [h.1, h1], h2⟩

theorem names_comma (s : String) (h : s ∈ ["lin", "sigm", "tanh", "rbf_l1", "rbf_l2", "rbf_linf"]) : ',' ∉ s.toList := by
  have : ∀ t ∈ ["lin", "sigm", "tanh", "rbf_l1", "rbf_l2", "rbf_linf"], ',' ∉ t.toList := by
    simp
  exact this s h

theorem names_head (s : String) (h : s ∈ ["lin", "sigm", "tanh", "rbf_l1", "rbf_l2", "rbf_linf"]) : s.toList.head? ≠ some '<' := by
  have : ∀ t ∈ ["lin", "sigm", "tanh", "rbf_l1", "rbf_l2", "rbf_linf"], t.toList.head? ≠ some '<' := by
    simp
  exact this s h

theorem ufunc_head : ',' ∉ "<ufunc '".toList := by simp

theorem ufunc_tail : ',' ∉ "'>".toList := by simp

theorem fmtFunc_comma {f : Func} (h : UsualType f) : ',' ∉ fmtFunc f := by
  cases f with
  | name s => exact names_comma s h
  | ufunc s =>
    have h : ',' ∉ s.toList := h
    intro hm
    rcases List.mem_append.1 hm with hm | hm
    · rcases List.mem_append.1 hm with hm | hm
      · exact absurd hm ufunc_head
      · exact h hm
    · exact absurd hm ufunc_tail

theorem fmtFunc_inj {f g : Func} (hf : UsualType f) (hg : UsualType g) (h : fmtFunc f = fmtFunc g) : f = g := by
  have key : ∀ {s t : String}, UsualType (.name s) → fmtFunc (.name s) ≠ fmtFunc (.ufunc t) := by
    intro s t hs h
    refine names_head s hs ?_
    have h0 : s.toList = "<ufunc '".toList ++ t.toList ++ "'>".toList := h
    rw [h0]
    simp
  rcases f with s | s
  · rcases g with t | t
    · exact congrArg Func.name (String.toList_inj.1 h)
    · exact absurd h (key hf)
  · rcases g with t | t
    · exact absurd h.symm (key hg)
    · exact congrArg Func.ufunc (String.toList_inj.1 (List.append_cancel_left (List.append_cancel_right h)))

theorem groups_inj {gs hs : List (Group K)} (h1 : ∀ g ∈ gs, UsualType g.func) (h2 : ∀ g ∈ hs, UsualType g.func)
    (h : gs.flatMap fmtGroup = hs.flatMap fmtGroup) : gs.map (fun g => (g.number, g.func)) = hs.map (fun g => (g.number, g.func)) := by
  have hne : ∀ g : Group K, fmtGroup g ≠ [] := by intro g h; have := congrArg List.length h; simp [fmtGroup] at this
  induction gs generalizing hs with
  | nil =>
    cases hs with
    | nil => rfl
    | cons g hs =>
      simp only [List.flatMap_nil, List.flatMap_cons] at h
      exact absurd (List.append_eq_nil_iff.1 h.symm).1 (hne g)
  | cons g gs ih =>
    cases hs with
    | nil =>
      simp only [List.flatMap_nil, List.flatMap_cons] at h
      exact absurd (List.append_eq_nil_iff.1 h).1 (hne g)
    | cons g' hs =>
      simp only [List.flatMap_cons, fmtGroup] at h
      have hs1 : ∀ a : Nat, ' ' ∉ fmtD a := fun a hm => absurd (fmtD_digit hm) (by decide)
      have e1 : ∀ (g : Group K) (r : List Char), fmtD g.number ++ " ".toList ++ fmtFunc g.func ++ ", ".toList ++ r =
          fmtD g.number ++ ' ' :: (fmtFunc g.func ++ ',' :: ' ' :: r) := by intro g r; simp
      have h' := h
      rw [e1, e1] at h'
      obtain ⟨k1, k2⟩ := split_at (hs1 _) (hs1 _) h'
      obtain ⟨k3, k4⟩ := split_at (fmtFunc_comma (h1 g List.mem_cons_self)) (fmtFunc_comma (h2 g' List.mem_cons_self)) k2
      have k5 := ih (fun g hg => h1 g (List.mem_cons_of_mem _ hg)) (fun g hg => h2 g (List.mem_cons_of_mem _ hg)) (by injection k4)
      simp only [List.map_cons]
      rw [fmtD_inj k1, fmtFunc_inj (h1 g List.mem_cons_self) (h2 g' List.mem_cons_self) k3, k5]

/-- C103.  Two models print the same description exactly when they have the same numbers of inputs and outputs, the same neuron types in the
same order and the same number of neurons of each type — also when there are no neurons yet. -/
theorem C103_description (e e' : ELM K) (h1 : ∀ g ∈ e.nnet.neurons, UsualType g.func) (h2 : ∀ g ∈ e'.nnet.neurons, UsualType g.func) :
    e.str = e'.str ↔ makeup e.nnet = makeup e'.nnet := by
  have hfold : ∀ (gs : List (Group K)) (s : List Char), gs.foldl (fun s g => s ++ fmtGroup g) s = s ++ gs.flatMap fmtGroup := by
    intro gs
    induction gs with
    | nil => intro s; simp
    | cons g gs ih => intro s; simp only [List.foldl_cons, List.flatMap_cons, ih, List.append_assoc]
  -- the text without its last two characters
  have hcut : ∀ (a : List Char) (gs : List (Group K)), ∃ t : List Char, (a ++ ": ".toList ++ gs.flatMap fmtGroup).take
      ((a ++ ": ".toList ++ gs.flatMap fmtGroup).length - 2) = a ++ t ∧ ((gs = [] ∧ t = []) ∨ (gs ≠ [] ∧ t ≠ [] ∧ t ++ ", ".toList = ": ".toList ++ gs.flatMap fmtGroup)) := by
    intro a gs
    rcases List.eq_nil_or_concat gs with rfl | ⟨gs', g, hg⟩
    · refine ⟨[], ?_, Or.inl ⟨rfl, rfl⟩⟩
      simp
    · rw [List.concat_eq_append] at hg
      subst hg
      refine ⟨": ".toList ++ gs'.flatMap fmtGroup ++ (fmtD g.number ++ " ".toList ++ fmtFunc g.func), ?_, Or.inr ⟨by simp, by simp, ?_⟩⟩
      · have : a ++ ": ".toList ++ (gs' ++ [g]).flatMap fmtGroup =
            (a ++ (": ".toList ++ gs'.flatMap fmtGroup ++ (fmtD g.number ++ " ".toList ++ fmtFunc g.func))) ++ ", ".toList := by
          simp [List.flatMap_append, fmtGroup]
        rw [this]
        have h2 : (", ".toList).length = 2 := rfl
        rw [List.length_append, h2, Nat.add_sub_cancel, List.take_left]
      · simp [List.flatMap_append, fmtGroup]
  have hstr : ∀ e : ELM K, ∃ t : List Char, e.str = "ELM with ".toList ++ (fmtD e.nnet.inputs ++ ' ' :: ("inputs and ".toList ++
      (fmtD e.nnet.outputs ++ ' ' :: ("outputs\nHidden layer neurons".toList ++ t)))) ∧
      ((e.nnet.neurons = [] ∧ t = []) ∨ (e.nnet.neurons ≠ [] ∧ t ≠ [] ∧ t ++ ", ".toList = ": ".toList ++ e.nnet.neurons.flatMap fmtGroup)) := by
    intro e
    obtain ⟨t, ht, h⟩ := hcut ("ELM with ".toList ++ fmtD e.nnet.inputs ++ " inputs and ".toList ++ fmtD e.nnet.outputs ++
      " outputs\nHidden layer neurons".toList) e.nnet.neurons
    refine ⟨t, ?_, h⟩
    unfold ELM.str
    simp only [hfold]
    have : "ELM with ".toList ++ fmtD e.nnet.inputs ++ " inputs and ".toList ++ fmtD e.nnet.outputs ++ " outputs\n".toList ++
        "Hidden layer neurons: ".toList ++ e.nnet.neurons.flatMap fmtGroup = "ELM with ".toList ++ fmtD e.nnet.inputs ++ " inputs and ".toList ++
        fmtD e.nnet.outputs ++ " outputs\nHidden layer neurons".toList ++ ": ".toList ++ e.nnet.neurons.flatMap fmtGroup := by simp
    rw [this, ht]
    simp
  have hsp : ∀ a : Nat, ' ' ∉ fmtD a := fun a hm => absurd (fmtD_digit hm) (by decide)
  constructor
  · intro h
    obtain ⟨t, ht, k⟩ := hstr e
    obtain ⟨t', ht', k'⟩ := hstr e'
    rw [ht, ht'] at h
    obtain ⟨a1, a2⟩ := split_at (hsp _) (hsp _) (List.append_cancel_left h)
    obtain ⟨b1, b2⟩ := split_at (hsp _) (hsp _) (List.append_cancel_left a2)
    have c := List.append_cancel_left b2
    subst c
    have hg : e.nnet.neurons.map (fun g => (g.number, g.func)) = e'.nnet.neurons.map (fun g => (g.number, g.func)) := by
      rcases k with ⟨k1, k2⟩ | ⟨k1, k2, k3⟩
      · rcases k' with ⟨k1', _⟩ | ⟨_, k2', _⟩
        · rw [k1, k1']
        · exact absurd k2 k2'
      · rcases k' with ⟨_, k2'⟩ | ⟨_, _, k3'⟩
        · exact absurd k2' k2
        · rw [k3] at k3'
          exact groups_inj h1 h2 (List.append_cancel_left k3')
    unfold makeup
    rw [fmtD_inj a1, fmtD_inj b1, hg]
  · intro h
    unfold makeup at h
    injection h with h3 h4
    injection h4 with h4 h5
    have hfl : ∀ gs : List (Group K), gs.flatMap fmtGroup =
        (gs.map fun g => (g.number, g.func)).flatMap (fun p => fmtD p.1 ++ " ".toList ++ fmtFunc p.2 ++ ", ".toList) := by
      intro gs; rw [List.flatMap_map]; rfl
    unfold ELM.str
    simp only [hfold, hfl, h3, h4, h5]

/-- Arguments of a history of calls: NumPy functions given as neuron types, and files loaded, have names as NumPy writes them. -/
def UsualOp : Op K → Prop
  | .addNeurons _ _ _ _ func _ _ => ∀ s, func = .ufunc s → ',' ∉ s.toList
  | .load m => ∀ g ∈ m.neurons, UsualType g.func
  | _ => True

theorem addGroup_usual {k : Nat} {f : Func} {W : List (List K)} {B : List K} (hf : UsualType f) (gs : List (Group K))
    (h : ∀ g ∈ gs, UsualType g.func) : ∀ g ∈ addGroup gs k f W B, UsualType g.func := by
  induction gs with
  | nil =>
    intro g hg
    simp only [addGroup, List.mem_singleton] at hg
    rw [hg]; exact hf
  | cons a gs ih =>
    intro g hg
    unfold addGroup at hg
    split at hg
    · rcases List.mem_cons.1 hg with rfl | hg
      · exact hf
      · exact h g (List.mem_cons_of_mem _ hg)
    · rcases List.mem_cons.1 hg with rfl | hg
      · exact h _ List.mem_cons_self
      · exact ih (fun g hg => h g (List.mem_cons_of_mem _ hg)) g hg

theorem frame_usual {n n' : NNet K} (h : NFrame n n') (hu : ∀ g ∈ n.neurons, UsualType g.func) : ∀ g ∈ n'.neurons, UsualType g.func := by
  intro g hg
  have : g.func ∈ n'.neurons.map (·.func) := List.mem_map_of_mem hg
  rw [h.funcs, List.mem_map] at this
  obtain ⟨g', hg', he⟩ := this
  rw [← he]
  exact hu g' hg'

theorem step_usual {env : Env K} {fs : Files K} {e e' : ELM K} {op : Op K} (ho : UsualOp op) (h : e.step env fs op = .ok e')
    (hu : ∀ g ∈ e.nnet.neurons, UsualType g.func) : ∀ g ∈ e'.nnet.neurons, UsualType g.func := by
  cases op with
  | addNeurons randW randB sq number func W B =>
    simp only [ELM.step, ELM.addNeurons] at h
    obtain ⟨_, h0, h⟩ := bind_ok h
    have h0 := pyAssert_ok h0
    obtain ⟨_, _, h⟩ := bind_ok h
    obtain ⟨_, _, h⟩ := bind_ok h
    injection h with h
    rw [← h]
    refine addGroup_usual ?_ _ hu
    cases func with
    | name s => simp only [funcOk, flist] at h0; exact (decide_eq_true_iff (p := s ∈ ["lin", "sigm", "tanh", "rbf_l1", "rbf_l2", "rbf_linf"])).1 h0
    | ufunc s => exact ho s rfl
  | addData X T => exact frame_usual (addData_frame h).nnet hu
  | addBatch X T wc =>
    obtain ⟨n, hn, h⟩ := bind_ok h
    injection h with h
    rw [← h]
    exact frame_usual (addBatch_frame hn) hu
  | reset => injection h with h; rw [← h]; exact frame_usual (reset_frame _) hu
  | prune idx => injection h with h; rw [← h]; exact frame_usual (prune_frame _ _) hu
  | setB B =>
    obtain ⟨n, hn, h⟩ := bind_ok h
    injection h with h
    rw [← h]
    exact frame_usual (setB_frame hn) hu
  | setCorr HH HT =>
    obtain ⟨n, hn, h⟩ := bind_ok h
    injection h with h
    rw [← h]
    exact frame_usual (setCorr_frame hn) hu
  | solve =>
    obtain ⟨n, hn, h⟩ := bind_ok h
    injection h with h
    rw [← h]
    exact frame_usual (solve_frame hn) hu
  | train rnd X T args kw =>
    have h2 := train_frame env fs rnd e X T args kw
    simp only [ELM.step] at h
    split at h
    · rename_i heq
      rw [heq] at h2
      injection h with h
      rw [← h]
      exact frame_usual h2.nnet hu
    · cases h
  | load m =>
    have hfold : ∀ (gs : List (Group K)) (n : NNet K), (∀ g ∈ gs, UsualType g.func) → (∀ g ∈ n.neurons, UsualType g.func) →
        ∀ g ∈ (gs.foldl (fun (n : NNet K) g =>
          n.addNeurons g.number g.func (g.W.map (List.map (env.cast e.prec))) (g.B.map (env.cast e.prec))) n).neurons, UsualType g.func := by
      intro gs
      induction gs with
      | nil => intro n _ hn; exact hn
      | cons g gs ih =>
        intro n hg hn
        rw [List.foldl_cons]
        exact ih _ (fun g' hg' => hg g' (List.mem_cons_of_mem _ hg')) (addGroup_usual (hg g List.mem_cons_self) _ hn)
    have hstart : ∀ g ∈ (if e.accelerator = none then NNet.init env .basic m.inputs m.outputs none e.prec else e.nnet).neurons, UsualType g.func := by
      split
      · simp [NNet.init]
      · exact hu
    have hc := hfold m.neurons _ ho hstart
    simp only [ELM.step, ELM.load] at h
    revert h hc
    generalize m.neurons.foldl _ _ = n
    intro h hc
    split at h
    · injection h with h
      rw [← h]
      exact hc
    · obtain ⟨n1, hn, h⟩ := bind_ok h
      injection h with h
      rw [← h]
      exact frame_usual (setB_frame hn) hc

/-- C103, every history.  Two models made by any constructor calls and any two histories of calls that did not raise (adding neurons,
feeding data, training with or without selection, pruning, loading, …) print the same description exactly when they have the same make-up. -/
theorem C103_histories (env : Env K) (fs fs' : Files K) {i o i' o' : Nat} {cls cls' : String} {w w' : Option (List K)} {batch batch' : Int}
    {acc acc' : Option String} {prec prec' : PrecArg} {norm norm' : Option K} {e0 e e0' e' : ELM K}
    (h0 : ELM.init env i o cls w batch acc prec norm = .ok e0) (h0' : ELM.init env i' o' cls' w' batch' acc' prec' norm' = .ok e0')
    (ops ops' : List (Op K)) (hu : ∀ op ∈ ops, UsualOp op) (hu' : ∀ op ∈ ops', UsualOp op) (h : e0.run env fs ops = .ok e)
    (h' : e0'.run env fs' ops' = .ok e') : e.str = e'.str ↔ makeup e.nnet = makeup e'.nnet := by
  have hrun : ∀ (fs : Files K) (ops : List (Op K)) (a b : ELM K), (∀ op ∈ ops, UsualOp op) → a.run env fs ops = .ok b →
      (∀ g ∈ a.nnet.neurons, UsualType g.func) → ∀ g ∈ b.nnet.neurons, UsualType g.func := by
    intro fs ops
    induction ops with
    | nil => intro a b _ h hu; injection h with h; rw [← h]; exact hu
    | cons op ops ih =>
      intro a b ho h hu
      obtain ⟨c, h1, h⟩ := bind_ok h
      exact ih c b (fun op hop => ho op (List.mem_cons_of_mem _ hop)) h (step_usual (ho op List.mem_cons_self) h1 hu)
  have hinit : ∀ {i o : Nat} {cls : String} {w : Option (List K)} {batch : Int} {acc : Option String} {prec : PrecArg} {norm : Option K} {e0 : ELM K},
      ELM.init env i o cls w batch acc prec norm = .ok e0 → ∀ g ∈ e0.nnet.neurons, UsualType g.func := by
    intro i o cls w batch acc prec norm e0 h0
    unfold ELM.init at h0
    obtain ⟨_, _, h0⟩ := bind_ok h0
    simp only at h0
    split at h0
    · obtain ⟨_, _, h0⟩ := bind_ok h0
      injection h0 with h0
      rw [← h0]; simp [NNet.init]
    · injection h0 with h0
      rw [← h0]; simp [NNet.init]
  exact C103_description e e' (hrun fs ops e0 e hu h (hinit h0)) (hrun fs' ops' e0' e' hu' h' (hinit h0'))

/-- Descriptions of models: with two neuron types, after pruning (a type keeps its place even if none of its neurons is left), and
without neurons. -/
example : exModel3.str = "ELM with 1 inputs and 1 outputs\nHidden layer neurons: 1 lin, 2 tanh".toList ∧
    ({ exModel3 with nnet := exModel3.nnet.prune [0] } : ELM ℚ).str = "ELM with 1 inputs and 1 outputs\nHidden layer neurons: 1 lin, 0 tanh".toList ∧
    ({ exModel3 with nnet := { exModel3.nnet with neurons := [] } } : ELM ℚ).str = "ELM with 1 inputs and 1 outputs\nHidden layer neurons".toList := by
  decide +kernel

/-- The hypotheses are met by a history that adds a documented type and a NumPy function. -/
example : ∀ g ∈ ([⟨1, .name "tanh", [[1]], [0]⟩, ⟨1, .ufunc "sin", [[2]], [1]⟩] : List (Group ℚ)), UsualType g.func := by
  intro g hg
  simp only [List.mem_cons, List.not_mem_nil, or_false] at hg
  rcases hg with rfl | rfl <;> simp [UsualType]

end Hpelm.Props
