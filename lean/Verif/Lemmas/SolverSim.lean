import Verif.Props.C15_Solvers
import Verif.Lemmas.Twin
import Verif.Lemmas.Ranking

/-! Structure selection under different solvers: every run is matched by the run of the basic solver. -/

set_option linter.unusedSectionVars false

namespace Hpelm
open Spec Finset Props
variable {K : Type} [Field K] [LinearOrder K]

/-- A multiple of the identity plus a sum of squares: what regularised correlation matrices look like. -/
structure GramM (lam : K) (S : Mat K) : Prop where
  sym : SymM S
  gram : ∃ N, ∃ h : Nat → Nat → K, ∀ i j, i < S.nrows → j < S.nrows →
    S.get i j = (if i = j then lam else 0) + ∑ s ∈ range N, 1 * h s i * h s j

theorem GramM.diag (L : Nat) (lam : K) : GramM lam (Mat.diag L lam) := by
  refine ⟨SymM.diag _ _, 0, fun _ _ => 0, ?_⟩
  intro i j hi hj
  have : (Mat.diag L lam).nrows = L := by simp [Mat.diag]
  rw [this] at hi hj
  rw [Mat.get_diag hi hj]; simp

theorem GramM.add {lam : K} {S H : Mat K} (h : GramM lam S) (hc : H.cols = S.cols) : GramM lam (S.add (H.tmul H)) := by
  obtain ⟨hs, N, g, hg⟩ := h
  refine ⟨hs.add (tmul_self_symm _) (by simp [hc, hs.square]), N + H.nrows, fun s i => if s < N then g s i else H.get (s - N) i, ?_⟩
  intro i j hi hj
  rw [Mat.add_nrows] at hi hj
  have hi' : i < H.cols := by rw [hc, ← hs.square]; exact hi
  have hj' : j < H.cols := by rw [hc, ← hs.square]; exact hj
  rw [Mat.get_add hi (by rw [← hs.square]; exact hj), hg i j hi hj, get_tmul_sum rfl hi' hj', Finset.sum_range_add, add_assoc]
  congr 2
  · refine Finset.sum_congr rfl fun s hs => ?_
    rw [Finset.mem_range] at hs
    simp [hs]
  · refine Finset.sum_congr rfl fun s hs => ?_
    simp

theorem GramM.sub {lam : K} {S : Mat K} (h : GramM lam S) {idx : List Nat} (hn : idx.Nodup) (hb : ∀ i ∈ idx, i < S.nrows) :
    GramM lam (subSquare S idx) := by
  obtain ⟨hs, N, g, hg⟩ := h
  have hr : (subSquare S idx).nrows = idx.length := by simp [subSquare]
  have hc : (subSquare S idx).cols = idx.length := by simp [subSquare]
  have hwf : (subSquare S idx).WF := Mat.selCols_WF _ _
  have hb' : ∀ i (hi : i < idx.length), idx[i] < S.nrows := fun i hi => hb _ (List.getElem_mem hi)
  refine ⟨⟨Mat.selCols_WF _ _, by rw [hr, hc], ?_⟩, N, fun s i => g s (idx.getD i 0), ?_⟩
  · intro i j
    by_cases hi : i < idx.length
    · by_cases hj : j < idx.length
      · rw [get_subSquare hi hj, get_subSquare hj hi, hs.symm]
      · rw [Mat.get_ge_cols _ hwf (by rw [hc]; omega), Mat.get_ge_rows _ (by rw [hr]; omega)]
    · by_cases hj : j < idx.length
      · rw [Mat.get_ge_rows _ (by rw [hr]; omega), Mat.get_ge_cols _ hwf (by rw [hc]; omega)]
      · rw [Mat.get_ge_rows _ (by rw [hr]; omega), Mat.get_ge_rows _ (by rw [hr]; omega)]
  · intro i j hi hj
    rw [hr] at hi hj
    rw [get_subSquare hi hj, hg _ _ (hb' i hi) (hb' j hj)]
    congr 1
    · by_cases e : i = j
      · subst e; simp
      · rw [if_neg e, if_neg]
        intro e'
        exact e ((List.Nodup.getElem_inj_iff hn).1 e')
    · simp [List.getD_eq_getElem?_getD, hi, hj]

theorem RelE.mono {α β : Type} {r r' : α → β → Prop} {x : Except PyErr α} {y : Except PyErr β} (h : RelE r x y) (hr : ∀ a b, r a b → r' a b) :
    RelE r' x y := by
  cases x <;> cases y
  · exact h
  · exact h
  · exact h
  · exact hr _ _ h

/-- The two sides are equal after any successful first step. -/
theorem RelE.same' {α β : Type} {r : α → β → Prop} {γ : Type} {m : Except PyErr γ} {f : γ → Except PyErr α} {f' : γ → Except PyErr β}
    (hf : ∀ a, m = .ok a → RelE r (f a) (f' a)) : RelE r (m >>= f) (m >>= f') := by
  cases m
  · exact rfl
  · exact hf _ rfl

variable [IsStrictOrderedRing K]

theorem GramM.posDef {lam : K} {S : Mat K} (h : GramM lam S) (hl : 0 < lam) : PosDef S := by
  obtain ⟨hs, N, g, hg⟩ := h
  exact posDef_gram hs rfl hs.square.symm hg hl (fun _ _ => zero_le_one)

/-- Two solver classes give the same answer. -/
theorem solveCorr_same {env : Env K} (hl : Lawful env) (hx : env.Exact) (n m : NNet K) {S A A' HT : Mat K} {lam : K} (h : GramM lam S)
    (hlam : 0 < lam) (hA : A = S ∨ A = n.store S) (hA' : A' = S ∨ A' = m.store S) (hT : HT.WF) (hTn : HT.nrows = S.nrows) :
    m.solveCorr env A' HT = n.solveCorr env A HT := by
  have hp := h.posDef hlam
  obtain ⟨a1, a2, a3, a4⟩ := solveCorr_posDef hl hx n h.sym hp hA hT hTn
  obtain ⟨b1, b2, b3, b4⟩ := solveCorr_posDef hl hx m h.sym hp hA' hT hTn
  exact posDef_cancel hp h.sym.square b2 a2 b3 a3 (by rw [a4, b4]) (by rw [a1, b1])

/-- What is known of the basic solver's network during a selection. -/
structure GoodN (n : NNet K) : Prop where
  basic : n.solver = .basic
  pos : 0 < n.norm
  cons : Consistent n
  count : n.L = some (size n)
  gram : GramM n.norm n.corr0.1

theorem GoodN.fresh {n : NNet K} (hb : n.solver = .basic) (hp : 0 < n.norm) (hc : Consistent n) (hL : n.L = some (size n)) (h0 : n.corr = none) :
    GoodN n := by
  have : n.corr0 = (Mat.diag (n.L.getD 0) n.norm, Mat.zeros (n.L.getD 0) n.outputs) := by unfold NNet.corr0; rw [h0]
  refine ⟨hb, hp, hc, hL, ?_⟩
  rw [this]; exact GramM.diag _ _

theorem GoodN.shape {n : NNet K} (h : GoodN n) {S HT : Mat K} (hc : n.corr = some (S, HT)) :
    GramM n.norm S ∧ HT.WF ∧ HT.nrows = S.nrows ∧ S.nrows = size n ∧ S.cols = size n := by
  obtain ⟨_, h2, h3, h4, h5, _⟩ := h.cons.corrs S HT hc
  have hg := h.gram
  have : n.corr0 = (S, HT) := by unfold NNet.corr0; rw [hc]
  rw [this] at hg
  rw [h.count] at h3 h4 h5
  injection h3 with h3
  injection h4 with h4
  injection h5 with h5
  exact ⟨hg, h2, by omega, h3, h4⟩

variable {env : Env K}

/-- The state of a network with the basic solver, and with another one, after one step. -/
def SimN (s : Solver) (p : Prec) (n a b : NNet K) : Prop :=
  b = conv s p a ∧ GoodN a ∧ a.neurons = n.neurons ∧ a.inputs = n.inputs ∧ a.norm = n.norm

theorem sim_addBatch (hx : env.Exact) (s : Solver) (p : Prec) {n : NNet K} (h : GoodN n) (X T : Mat K) (w) :
    RelE (fun a b => SimN s p n a b ∧ a.corr ≠ none) (n.addBatch env X T w) ((conv s p n).addBatch env X T w) := by
  obtain ⟨h1, _⟩ := conv_addBatch hx s p n h.basic h.gram.sym X T w
  rw [h1]
  cases hr : n.addBatch env X T w with
  | error x => exact rfl
  | ok m =>
    have hcm := addBatch_consistent h.cons hr
    have hcs := addBatch_corr_some hr
    rw [addBatch_eq] at hr
    obtain ⟨H, hp, hr⟩ := bind_ok hr
    have key : ∀ T, n.accum env H T w = (weighted env n.prec w H T).bind fun q => n.accum env q.1 q.2 none := fun m => rfl
    rw [key] at hr
    obtain ⟨q, hw, hr⟩ := bind_ok hr
    rw [accum_none] at hr
    split at hr
    · cases hr
    split at hr
    · cases hr
    rename_i hcol
    push Not at hcol
    injection hr with hr
    subst hr
    refine ⟨⟨rfl, ⟨h.basic, h.pos, hcm, h.count, ?_⟩, rfl, rfl, rfl⟩, hcs⟩
    have hu : n.updHH n.corr0.1 q.1 = n.corr0.1.add (q.1.tmul q.1) := by
      unfold NNet.updHH; rw [h.basic]
    show GramM n.norm (n.updHH n.corr0.1 q.1)
    rw [hu]
    exact h.gram.add hcol

theorem sim_getCorr (s : Solver) (p : Prec) {n : NNet K} (h : GoodN n) (hc : n.corr ≠ none) :
    ∃ S HT, n.corr = some (S, HT) ∧ n.getCorr! = .ok (S, HT) ∧ (conv s p n).getCorr! = .ok (S, HT) := by
  obtain ⟨⟨S, HT⟩, hcc⟩ := Option.ne_none_iff_exists'.1 hc
  have hS := (h.shape hcc).1.sym
  have hst : n.store S = S := by unfold NNet.store NNet.tri; rw [h.basic]; rfl
  exact ⟨S, HT, hcc, getCorr!_store hS (by rw [hst]; exact hcc), getCorr!_store hS (by simp [conv, hcc]; rfl)⟩

theorem sim_solve (hl : Lawful env) (hx : env.Exact) (s : Solver) (p : Prec) {n : NNet K} (h : GoodN n) :
    RelE (fun a b => SimN s p n a b ∧ a.corr ≠ none) (n.solve env) ((conv s p n).solve env) := by
  cases hs : n.solve env with
  | error x =>
    unfold NNet.solve at hs ⊢
    cases hc : n.corr with
    | none => rw [hc] at hs; injection hs with hs; simp [conv, hc, RelE, ← hs]
    | some c => rw [hc] at hs; cases hs
  | ok m =>
    have hcm := solve_consistent hl.toShapes h.cons hs
    unfold NNet.solve at hs ⊢
    cases hc : n.corr with
    | none => rw [hc] at hs; cases hs
    | some c =>
      obtain ⟨S, HT⟩ := c
      rw [hc] at hs
      injection hs with hs
      have hcc : (conv s p n).corr = some ((conv s p n).store S, HT) := by simp [conv, hc]; rfl
      rw [hcc]
      obtain ⟨g1, g2, g3, g4, g5⟩ := h.shape hc
      have hB := solveCorr_same hl hx n (conv s p n) (A := S) g1 h.pos (Or.inl rfl) (Or.inr rfl) g2 g3
      subst hs
      refine ⟨⟨?_, ⟨h.basic, h.pos, hcm, h.count, g1⟩, rfl, rfl, rfl⟩, by simp⟩
      simp only [hB]
      simp [conv, hc]
      rfl

/-- The same object with another solver class, precision and accelerator (the correlation matrices as this solver stores them). -/
def convE (s : Solver) (p q : Prec) (acc : Option String) (e : ELM K) : ELM K :=
  { e with nnet := conv s p e.nnet, prec := q, accelerator := acc }

variable {s : Solver} {p q : Prec} {acc : Option String}

def SimE (s : Solver) (p q : Prec) (acc : Option String) (e a b : ELM K) : Prop :=
  b = convE s p q acc a ∧ GoodN a.nnet ∧ a.nnet.neurons = e.nnet.neurons ∧ a.nnet.inputs = e.nnet.inputs

theorem sim_feed (hx : env.Exact) {oc ic : Nat} (bs : List (List (List K) × List (List K))) {e : ELM K} (h : GoodN e.nnet) :
    RelE (fun a b => SimE s p q acc e a b ∧ (bs ≠ [] ∨ e.nnet.corr ≠ none → a.nnet.corr ≠ none))
      (e.feed env ic oc bs) ((convE s p q acc e).feed env ic oc bs) := by
  induction bs generalizing e with
  | nil => exact ⟨⟨rfl, h, rfl, rfl⟩, by simp⟩
  | cons b bs ih =>
    obtain ⟨Xb, Tb⟩ := b
    unfold ELM.feed
    refine RelE.same fun w => ?_
    refine RelE.bind (sim_addBatch hx s p h _ _ w) ?_
    rintro a b ⟨⟨rfl, h1, h2, h3, _⟩, h4⟩
    have := ih (e := { e with nnet := a }) h1
    refine this.mono ?_
    rintro c d ⟨⟨c1, c2, c3, c4⟩, c5⟩
    exact ⟨⟨c1, c2, c3.trans h2, c4.trans h3⟩, fun _ => c5 (Or.inr h4)⟩

theorem sim_addData (hx : env.Exact) {e : ELM K} (h : GoodN e.nnet) (X T : Mat K) :
    RelE (fun a b => SimE s p q acc e a b ∧ a.nnet.corr ≠ none) (e.addData env X T) ((convE s p q acc e).addData env X T) := by
  unfold ELM.addData
  have hb : (convE s p q acc e).batch = e.batch := rfl
  rw [hb]
  split_ifs
  · exact rfl
  have ha : (convE s p q acc e).autoWc env (colSums T) = convE s p q acc (e.autoWc env (colSums T)) := by
    unfold ELM.autoWc
    have h1 : (convE s p q acc e).classification = e.classification := rfl
    have h2 : (convE s p q acc e).wc = e.wc := rfl
    rw [h1, h2]
    split_ifs
    · have : ∀ r, (colSums T).map (env.cast r) = colSums T := fun r => by rw [List.map_congr_left (fun x _ => hx r x)]; simp
      simp only [this]
      rfl
    · rfl
  simp only [ha]
  have hn : (e.autoWc env (colSums T)).nnet = e.nnet := autoWc_nnet _ _ _
  cases h1 : arraySplit X.rows (ceilDiv X.nrows e.batch) with
  | error x => exact rfl
  | ok Xs =>
  cases h2 : arraySplit T.rows (ceilDiv X.nrows e.batch) with
  | error x => exact rfl
  | ok Ts =>
  simp only [bind, Except.bind]
  have := sim_feed (s := s) (p := p) (q := q) (acc := acc) hx (Xs.zip Ts) (ic := X.cols) (oc := T.cols) (e := e.autoWc env (colSums T)) (by rw [hn]; exact h)
  have hz : Xs.zip Ts ≠ [] := by
    have hne : ∀ {α : Type} {l : List α} {k : Int} {r : List (List α)}, arraySplit l k = .ok r → r ≠ [] := by
      intro α l k r hr
      unfold arraySplit at hr
      split at hr
      · cases hr
      rename_i hk
      injection hr with hr
      subst hr
      have h2 : arraySplitSizes l.length k.toNat ≠ [] := by
        unfold arraySplitSizes
        have := Nat.mod_lt l.length (show 0 < k.toNat by omega)
        intro h0
        have := congrArg List.length h0
        simp at this
        omega
      cases h3 : arraySplitSizes l.length k.toNat with
      | nil => exact absurd h3 h2
      | cons a as => simp [splitSizes]
    cases Xs with
    | nil => exact absurd rfl (hne h1)
    | cons a as =>
      cases Ts with
      | nil => exact absurd rfl (hne h2)
      | cons b bs => simp
  refine this.mono ?_
  rintro c d ⟨⟨c1, c2, c3, c4⟩, c5⟩
  rw [hn] at c3 c4
  exact ⟨⟨c1, c2, c3, c4⟩, c5 (Or.inl hz)⟩

theorem sim_prune {n : NNet K} (h : GoodN n) (idx : List Nat) : (conv s p n).prune idx = conv s p (n.prune idx) ∧ GoodN (n.prune idx) := by
  refine ⟨rfl, GoodN.fresh h.basic h.pos (prune_consistent h.cons _) rfl rfl⟩

/-- The end of a training run. -/
def DoneS (s : Solver) (p q : Prec) (acc : Option String) (a b : ELM K) : Prop :=
  b = convE s p q acc a ∧ GoodN a.nnet ∧ a.nnet.corr ≠ none

theorem sim_refit (hl : Lawful env) (hx : env.Exact) {e : ELM K} (h : GoodN e.nnet) (X T : Mat K) (best : List Nat) :
    RelE (DoneS s p q acc) (e.refit env best X T) ((convE s p q acc e).refit env best X T) := by
  unfold ELM.refit
  obtain ⟨h1, h2⟩ := sim_prune (s := s) (p := p) h best
  have : (convE s p q acc e).nnet.prune best = conv s p (e.nnet.prune best) := h1
  rw [this]
  refine RelE.bind (sim_addBatch hx s p h2 X T none) ?_
  rintro a b ⟨⟨rfl, h3, -⟩, -⟩
  refine RelE.bind (sim_solve hl hx s p h3) ?_
  rintro c d ⟨⟨rfl, h4, -⟩, h5⟩
  exact ⟨rfl, h4, h5⟩

/-- Every ranking lists distinct neurons. -/
theorem ranking_good {sh : List Nat} {e : ELM K} {L0 : Nat} {H T : Mat K} {rank : List Nat} {L : Nat} (hsh : sh.Perm (List.range H.cols))
    (h : e.ranking env sh L0 H T = .ok (rank, L)) : rank.Nodup ∧ ∀ i ∈ rank, i < H.cols := by
  have key : ∀ {r : List Nat}, (∃ rest, (r ++ rest).Perm (List.range H.cols)) → r.Nodup ∧ ∀ i ∈ r, i < H.cols := by
    rintro r ⟨rest, hr⟩
    have hn := hr.nodup_iff.2 List.nodup_range
    refine ⟨hn.of_append_left, fun i hi => ?_⟩
    have := hr.mem_iff.1 (List.mem_append_left rest hi)
    exact List.mem_range.1 this
  unfold ELM.ranking at h
  split at h
  · simp only at h
    split at h
    all_goals
      obtain ⟨r, h1, h2⟩ := bind_ok h
      injection h2 with h2
      injection h2 with h2 _
      subst h2
    · exact key (mrsr_ok h1).1
    · exact key (mrsr2_ok h1).1
  · injection h with h
    injection h with h _
    subst h
    exact key ⟨[], by simpa using hsh⟩

theorem sim_scoreV (hl : Lawful env) (hx : env.Exact) (e : ELM K) {lam : K} {S HT : Mat K} (hg : GramM lam S) (hlam : 0 < lam) (hT : HT.WF)
    (hr : HT.nrows = S.nrows) {rank : List Nat} (hn : rank.Nodup) (hb : ∀ i ∈ rank, i < S.nrows) (Hv Tv : Mat K) (k : Nat) :
    scoreV env (convE s p q acc e) S HT Hv Tv (rank.take k) = scoreV env e S HT Hv Tv (rank.take k) := by
  unfold scoreV
  have hn' : (rank.take k).Nodup := hn.sublist (List.take_sublist _ _)
  have hb' : ∀ i ∈ rank.take k, i < S.nrows := fun i hi => hb i (List.mem_of_mem_take hi)
  have := solveCorr_same hl hx e.nnet (convE s p q acc e).nnet (hg.sub hn' hb') hlam (Or.inl rfl) (Or.inl rfl)
    (Mat.selRows_WF hT (by intro i hi; rw [hr]; exact hb' i hi)) (by simp [subSquare])
  simp only [this]
  rfl

theorem sim_trainV (hl : Lawful env) (hx : env.Exact) {e : ELM K} (h : GoodN e.nnet) {sh : List Nat} (hsh : sh.Perm (List.range (size e.nnet)))
    (X T Xv Tv : Mat K) :
    RelE (fun a b => DoneS s p q acc a.1 b.1 ∧ b.2 = a.2) (trainV env sh e X T Xv Tv) (trainV env sh (convE s p q acc e) X T Xv Tv) := by
  unfold trainV
  refine RelE.bind (sim_addData hx h X T) ?_
  rintro a b ⟨⟨rfl, h1, h2, h3⟩, h4⟩
  obtain ⟨S, HT, c1, c2, c3⟩ := sim_getCorr s p h1 h4
  have c3' : (convE s p q acc a).nnet.getCorr! = .ok (S, HT) := c3
  rw [c2, c3']
  obtain ⟨g1, g2, g3, g4, g5⟩ := h1.shape c1
  refine RelE.same' fun c hc => ?_
  injection hc with hc
  subst hc
  simp only
  have hpr : (convE s p q acc a).nnet.project env Xv = a.nnet.project env Xv := rfl
  rw [hpr]
  refine RelE.same' fun Hv hHv => ?_
  have hcols : Hv.cols = size a.nnet := (project_WF h1.cons hHv).2.2
  have hsz : size a.nnet = size e.nnet := by unfold size; rw [h2]
  have hrk : ∀ L0, (convE s p q acc a).ranking env sh L0 Hv Tv = a.ranking env sh L0 Hv Tv := fun L0 => rfl
  have hL : (convE s p q acc a).nnet.L = a.nnet.L := rfl
  rw [hrk, hL]
  refine RelE.same' fun r hr => ?_
  obtain ⟨rank, L⟩ := r
  simp only
  obtain ⟨r1, r2⟩ := ranking_good (by rw [hcols, hsz]; exact hsh) hr
  have hb : ∀ i ∈ rank, i < S.nrows := fun i hi => by rw [g4, ← hcols]; exact r2 i hi
  have hB : (convE s p q acc a).nnet.solveCorr env S HT = a.nnet.solveCorr env S HT :=
    solveCorr_same hl hx _ _ g1 h1.pos (Or.inl rfl) (Or.inl rfl) g2 g3
  rw [hB]
  have hcl : (convE s p q acc a).classification = a.classification := rfl
  have hwc : (convE s p q acc a).wc = a.wc := rfl
  rw [hcl, hwc]
  refine RelE.same fun err => ?_
  refine RelE.same fun pen => ?_
  simp only [sim_scoreV hl hx a g1 h1.pos g2 g3 r1 hb]
  refine RelE.same fun t => ?_
  obtain ⟨kopt, errs⟩ := t
  simp only
  refine RelE.bind (sim_refit hl hx h1 X T (rank.take kopt)) ?_
  intro f g hd
  exact ⟨hd, rfl⟩

theorem sim_trainLOO (hl : Lawful env) (hx : env.Exact) {e : ELM K} (h : GoodN e.nnet) (sh : List Nat) (X T : Mat K) :
    RelE (fun a b => DoneS s p q acc a.1 b.1 ∧ b.2 = a.2) (trainLOO env sh e X T) (trainLOO env sh (convE s p q acc e) X T) := by
  unfold trainLOO
  have hpr : (convE s p q acc e).nnet.project env X = e.nnet.project env X := rfl
  rw [hpr]
  refine RelE.same fun H => ?_
  refine RelE.bind (sim_addData hx h X T) ?_
  rintro a b ⟨⟨rfl, h1, h2, h3⟩, h4⟩
  obtain ⟨S, HT, c1, c2, c3⟩ := sim_getCorr s p h1 h4
  have c3' : (convE s p q acc a).nnet.getCorr! = .ok (S, HT) := c3
  rw [c2, c3']
  refine RelE.same fun c => ?_
  obtain ⟨HH, HT⟩ := c
  simp only
  have hrk : ∀ L0, (convE s p q acc a).ranking env sh L0 H T = a.ranking env sh L0 H T := fun L0 => rfl
  have hL : (convE s p q acc a).nnet.L = a.nnet.L := rfl
  have hsc : ∀ A B C D, scoreLOO env (convE s p q acc a) A B C D = scoreLOO env a A B C D := fun A B C D => rfl
  rw [hrk, hL]
  refine RelE.same fun r => ?_
  obtain ⟨rank, L⟩ := r
  simp only [hsc]
  refine RelE.same fun err => ?_
  refine RelE.same fun pen => ?_
  refine RelE.same fun t => ?_
  obtain ⟨kopt, errs⟩ := t
  simp only
  refine RelE.bind (sim_refit hl hx h1 X T (rank.take kopt)) ?_
  intro f g hd
  exact ⟨hd, rfl⟩

/-- The data of one round of cross-validation. -/
def GoodFold (lam : K) (d : FoldData K) : Prop :=
  GramM lam d.HH ∧ d.HT.WF ∧ d.HT.nrows = d.HH.nrows ∧ d.rank.Nodup ∧ ∀ i ∈ d.rank, i < d.HH.nrows

theorem sim_cvFold (hx : env.Exact) {e : ELM K} (h : GoodN e.nnet) {sh : List Nat} (hsh : sh.Perm (List.range (size e.nnet)))
    (X T : Mat K) (k i : Nat) :
    cvFold env sh (convE s p q acc e) X T k i = cvFold env sh e X T k i ∧ ∀ d, cvFold env sh e X T k i = .ok d → GoodFold e.nnet.norm d := by
  have hr : (convE s p q acc e).nnet.reset = conv s p e.nnet.reset := rfl
  have hg : GoodN e.nnet.reset := GoodN.fresh h.basic h.pos (reset_consistent h.cons) rfl rfl
  have key : RelE (fun a b => b = a ∧ GoodFold e.nnet.norm a) (cvFold env sh e X T k i) (cvFold env sh (convE s p q acc e) X T k i) := by
    unfold cvFold
    rw [hr]
    simp only
    refine RelE.bind (sim_addBatch hx s p hg _ _ none) ?_
    rintro a b ⟨⟨rfl, h1, h2, h3, h5⟩, h4⟩
    obtain ⟨S, HT, c1, c2, c3⟩ := sim_getCorr s p h1 h4
    rw [c2, c3]
    obtain ⟨g1, g2, g3, g4, g5⟩ := h1.shape c1
    refine RelE.same' fun c hc => ?_
    injection hc with hc
    subst hc
    simp only
    have hpr : ∀ Y, (conv s p a).project env Y = a.project env Y := fun _ => rfl
    rw [hpr, hpr]
    refine RelE.same' fun Hv hHv => ?_
    refine RelE.same fun Hts => ?_
    have hcols : Hv.cols = size a := (project_WF h1.cons hHv).2.2
    have hsz : size a = size e.nnet := by unfold size; rw [h2]; rfl
    have hrk : (convE s p q acc e).ranking env sh Hv.cols Hv (T.selRows (cvVal X.nrows k i)) = e.ranking env sh Hv.cols Hv (T.selRows (cvVal X.nrows k i)) := rfl
    rw [hrk]
    refine RelE.same' fun r hr => ?_
    obtain ⟨rank, L⟩ := r
    obtain ⟨r1, r2⟩ := ranking_good (by rw [hcols, hsz]; exact hsh) hr
    rw [h5] at g1
    exact ⟨rfl, g1, g2, g3, r1, fun i hi => by show i < S.nrows; rw [g4, ← hcols]; exact r2 i hi⟩
  cases h1 : cvFold env sh e X T k i with
  | error x =>
    cases h2 : cvFold env sh (convE s p q acc e) X T k i with
    | error y =>
      rw [h1, h2] at key
      have : x = y := key
      exact ⟨by rw [this], fun d hd => (by cases hd)⟩
    | ok d => rw [h1, h2] at key; exact key.elim
  | ok d =>
    cases h2 : cvFold env sh (convE s p q acc e) X T k i with
    | error y => rw [h1, h2] at key; exact key.elim
    | ok d' =>
      rw [h1, h2] at key
      obtain ⟨k1, k2⟩ := key
      refine ⟨by rw [k1], fun d2 hd => ?_⟩
      injection hd with hd
      rw [← hd]; exact k2

theorem cvMean_congr {k : Nat} {f g : FoldData K → Except PyErr K} {ds : List (FoldData K)} (h : ∀ d ∈ ds, f d = g d) (acc : K) :
    cvMean k f ds acc = cvMean k g ds acc := by
  induction ds generalizing acc with
  | nil => rfl
  | cons d ds ih =>
    unfold cvMean
    rw [h d List.mem_cons_self]
    congr 1
    funext v
    exact ih (fun d hd => h d (List.mem_cons_of_mem _ hd)) _

theorem mapM_mem {α β : Type} {f : α → Except PyErr β} {l : List α} {r : List β} (h : l.mapM f = .ok r) : ∀ b ∈ r, ∃ a ∈ l, f a = .ok b := by
  induction l generalizing r with
  | nil => injection h with h; subst h; simp
  | cons a l ih =>
    rw [List.mapM_cons] at h
    obtain ⟨b, h1, h⟩ := bind_ok h
    obtain ⟨bs, h2, h⟩ := bind_ok h
    injection h with h
    subst h
    intro c hc
    rcases List.mem_cons.1 hc with rfl | hc
    · exact ⟨a, List.mem_cons_self, h1⟩
    · obtain ⟨x, hx, hf⟩ := ih h2 c hc
      exact ⟨x, List.mem_cons_of_mem _ hx, hf⟩

theorem sim_trainCV (hl : Lawful env) (hx : env.Exact) {e : ELM K} (h : GoodN e.nnet) {sh : Nat → List Nat}
    (hsh : ∀ i, (sh i).Perm (List.range (size e.nnet))) (X T : Mat K) (k : Nat) :
    RelE (fun a b => DoneS s p q acc a.1 b.1 ∧ b.2 = a.2) (trainCV env sh e X T k) (trainCV env sh (convE s p q acc e) X T k) := by
  unfold trainCV
  have hf : (fun i => cvFold env (sh i) (convE s p q acc e) X T k i) = fun i => cvFold env (sh i) e X T k i := by
    funext i; exact (sim_cvFold hx h (hsh i) X T k i).1
  rw [hf]
  refine RelE.same' fun ds hds => ?_
  have hgood : ∀ d ∈ ds, GoodFold e.nnet.norm d := by
    intro d hd
    obtain ⟨i, _, hi⟩ := mapM_mem hds d hd
    exact (sim_cvFold (s := s) (p := p) (q := q) (acc := acc) hx h (hsh i) X T k i).2 d hi
  have hB : ∀ d ∈ ds, (convE s p q acc e).nnet.solveCorr env d.HH d.HT = e.nnet.solveCorr env d.HH d.HT := by
    intro d hd
    obtain ⟨g1, g2, g3, _⟩ := hgood d hd
    exact solveCorr_same hl hx _ _ g1 h.pos (Or.inl rfl) (Or.inl rfl) g2 g3
  have hL : (convE s p q acc e).nnet.L = e.nnet.L := rfl
  have hcl : (convE s p q acc e).classification = e.classification := rfl
  have hwc : (convE s p q acc e).wc = e.wc := rfl
  rw [hL, hcl, hwc]
  have hv : cvMean k (fun d => elmError e.classification e.wc d.Tvl (d.Hvl.mul ((convE s p q acc e).nnet.solveCorr env d.HH d.HT))) ds 0 =
      cvMean k (fun d => elmError e.classification e.wc d.Tvl (d.Hvl.mul (e.nnet.solveCorr env d.HH d.HT))) ds 0 :=
    cvMean_congr (fun d hd => by simp only [hB d hd]) 0
  have ht : cvMean k (fun d => elmError e.classification e.wc d.Tts (d.Hts.mul ((convE s p q acc e).nnet.solveCorr env d.HH d.HT))) ds 0 =
      cvMean k (fun d => elmError e.classification e.wc d.Tts (d.Hts.mul (e.nnet.solveCorr env d.HH d.HT))) ds 0 :=
    cvMean_congr (fun d hd => by simp only [hB d hd]) 0
  simp only [hv, ht]
  refine RelE.same fun err => ?_
  refine RelE.same fun pen => ?_
  have hs : ∀ idx, cvMean k (fun d => scoreV env (convE s p q acc e) d.HH d.HT d.Hvl d.Tvl (d.rank.take idx)) ds 0 =
      cvMean k (fun d => scoreV env e d.HH d.HT d.Hvl d.Tvl (d.rank.take idx)) ds 0 := by
    intro idx
    refine cvMean_congr (fun d hd => ?_) 0
    obtain ⟨g1, g2, g3, g4, g5⟩ := hgood d hd
    exact sim_scoreV hl hx e g1 h.pos g2 g3 g4 g5 _ _ _
  simp only [hs]
  refine RelE.same fun t => ?_
  obtain ⟨kopt, errs⟩ := t
  simp only
  refine RelE.same fun errT => ?_
  refine RelE.bind (sim_refit hl hx h X T _) ?_
  intro f g hd
  exact ⟨hd, rfl⟩

theorem sim_trainBody (hl : Lawful env) (hx : env.Exact) {e : ELM K} (h : GoodN e.nnet) {rnd : Rnd}
    (hsh : ∀ i, (rnd.shuffles i).Perm (List.range (size e.nnet))) (fs : Files K) (X T : Mat K) (args : List String) (kw : Kwargs K) :
    RelE (fun a b => DoneS s p q acc a.2 b.2 ∧ b.1 = a.1) (e.trainBody env fs rnd X T args kw)
      ((convE s p q acc e).trainBody env fs rnd X T args kw) := by
  unfold ELM.trainBody
  split_ifs
  · cases kw.Xv with
    | none => exact rfl
    | some Xv =>
    cases kw.Tv with
    | none => exact rfl
    | some Tv =>
      simp only
      have hck : checkBoth fs (convE s p q acc e).nnet Xv Tv = checkBoth fs e.nnet Xv Tv := rfl
      rw [hck]
      refine RelE.same fun c => ?_
      obtain ⟨Xv, Tv⟩ := c
      simp only
      refine RelE.bind (sim_trainV hl hx h (hsh 0) X T Xv Tv) ?_
      rintro a b ⟨h1, _⟩
      exact ⟨h1, rfl⟩
  · cases kw.k with
    | none => exact rfl
    | some k =>
      simp only
      refine RelE.same fun _ => ?_
      refine RelE.bind (sim_trainCV hl hx h hsh X T _) ?_
      rintro a b ⟨h1, h2⟩
      exact ⟨h1, by rw [h2]⟩
  · refine RelE.bind (sim_trainLOO hl hx h (rnd.shuffles 0) X T) ?_
    rintro a b ⟨h1, _⟩
    exact ⟨h1, rfl⟩
  · refine RelE.bind (sim_addData hx h X T) ?_
    rintro a b ⟨⟨rfl, h1, _⟩, _⟩
    refine RelE.bind (sim_solve hl hx s p h1) ?_
    rintro c d ⟨⟨rfl, h2, _⟩, h3⟩
    exact ⟨⟨rfl, h2, h3⟩, rfl⟩

end Hpelm
