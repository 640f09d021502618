import Verif.Props.C14_Ridge

/-!
# C15 — all solvers are interchangeable
-/

namespace Hpelm.Props
open Hpelm Spec Finset
variable {K : Type} [Field K] [LinearOrder K]
set_option linter.unusedSectionVars false

/-- Feed a list of batches (inputs, targets, optional sample weights) to a network. -/
def feedNet (env : Env K) (n : NNet K) (bs : List (Mat K × Mat K × Option (List K))) : Except PyErr (NNet K) :=
  bs.foldlM (init := n) fun n b => n.addBatch env b.1 b.2.1 b.2.2

/-- The same network with another solver class and precision. -/
def withSolver (n : NNet K) (s : Solver) (p : Prec) : NNet K := { n with solver := s, prec := p }

/-- How the state of a network with the basic solver looks under another solver. -/
def conv (s : Solver) (p : Prec) (n : NNet K) : NNet K :=
  { n with solver := s, prec := p, corr := n.corr.map fun c => ((withSolver n s p).store c.1, c.2) }

theorem conv_corr0 (s : Solver) (p : Prec) (n : NNet K) : (conv s p n).corr0 = ((conv s p n).store n.corr0.1, n.corr0.2) := by
  unfold NNet.corr0
  cases h : n.corr with
  | none =>
    have : (conv s p n).corr = none := by simp [conv, h]
    rw [this]
    simp only
    rw [diag_store]
    rfl
  | some c =>
    have : (conv s p n).corr = some ((withSolver n s p).store c.1, c.2) := by simp [conv, h]
    rw [this]
    rfl

theorem weighted_exact {env : Env K} (hx : env.Exact) (p q : Prec) (w) (H T : Mat K) : weighted env p w H T = weighted env q w H T := by
  unfold weighted
  cases w with
  | none => rfl
  | some w =>
    have : (fun x => env.cast p (env.sqrt x)) = fun x => env.cast q (env.sqrt x) := by funext x; rw [hx, hx]
    simp only [this]

theorem conv_addBatch {env : Env K} (hx : env.Exact) (s : Solver) (p : Prec) (n : NNet K) (hb : n.solver = .basic) (hS : SymM n.corr0.1)
    (X T : Mat K) (w) : (conv s p n).addBatch env X T w = (n.addBatch env X T w).map (conv s p) ∧
      ∀ n', n.addBatch env X T w = .ok n' → n'.solver = .basic ∧ SymM n'.corr0.1 := by
  rw [addBatch_eq, addBatch_eq]
  have hp : (conv s p n).project env X = n.project env X := rfl
  rw [hp]
  cases n.project env X with
  | error x => exact ⟨rfl, by intro n' h; cases h⟩
  | ok H =>
    simp only [Except.bind]
    rw [Mat.map_id' (hx _), Mat.map_id' (hx _)]
    have key : ∀ (m : NNet K), m.accum env H T w = (weighted env m.prec w H T).bind fun q => m.accum env q.1 q.2 none := fun m => rfl
    rw [key, key, weighted_exact hx (conv s p n).prec n.prec]
    cases weighted env n.prec w H T with
    | error x => exact ⟨rfl, by intro n' h; cases h⟩
    | ok q =>
      obtain ⟨H', T'⟩ := q
      simp only [Except.bind]
      rw [accum_none, accum_none, conv_corr0, store_cols]
      have ho : (conv s p n).outputs = n.outputs := rfl
      rw [ho]
      split
      · exact ⟨rfl, by intro n' h; cases h⟩
      split
      · exact ⟨rfl, by intro n' h; cases h⟩
      rename_i hc
      push Not at hc
      have hst : n.store n.corr0.1 = n.corr0.1 := by
        unfold NNet.store NNet.tri; rw [hb]; rfl
      have hu : n.updHH n.corr0.1 H' = n.corr0.1.add (H'.tmul H') := by
        unfold NNet.updHH; rw [hb]
      constructor
      · rw [updHH_store _ _ _ hc hS.square, hu]
        rfl
      · intro n' h
        injection h with h
        rw [← h]
        refine ⟨hb, ?_⟩
        show SymM (n.updHH n.corr0.1 H')
        rw [hu]
        exact hS.add (tmul_self_symm _) (by simp [hc, hS.square])

theorem conv_feed {env : Env K} (hx : env.Exact) (s : Solver) (p : Prec) (bs : List (Mat K × Mat K × Option (List K))) (n : NNet K)
    (hb : n.solver = .basic) (hS : SymM n.corr0.1) : feedNet env (conv s p n) bs = (feedNet env n bs).map (conv s p) ∧
      ∀ n', feedNet env n bs = .ok n' → n'.solver = .basic ∧ SymM n'.corr0.1 := by
  unfold feedNet
  induction bs generalizing n with
  | nil => exact ⟨rfl, by intro n' h; injection h with h; rw [← h]; exact ⟨hb, hS⟩⟩
  | cons b bs ih =>
    obtain ⟨h1, h2⟩ := conv_addBatch hx s p n hb hS b.1 b.2.1 b.2.2
    rw [List.foldlM_cons, List.foldlM_cons, h1]
    cases hr : n.addBatch env b.1 b.2.1 b.2.2 with
    | error x => exact ⟨rfl, by intro n' h; cases h⟩
    | ok n1 =>
      obtain ⟨k1, k2⟩ := h2 n1 hr
      exact ih n1 k1 k2

theorem feed_corr {env : Env K} (bs : List (Mat K × Mat K × Option (List K))) (n n' : NNet K) (h : feedNet env n bs = .ok n')
    (hb : bs ≠ [] ∨ n.corr ≠ none) : n'.corr ≠ none := by
  unfold feedNet at h
  induction bs generalizing n with
  | nil =>
    injection h with h
    rw [← h]
    rcases hb with hb | hb
    · exact absurd rfl hb
    · exact hb
  | cons b bs ih =>
    rw [List.foldlM_cons] at h
    obtain ⟨n1, h1, h⟩ := bind_ok h
    exact ih n1 h (Or.inr (addBatch_corr_some h1))

/-- C15.  Start from any network without accumulated data and feed it any non-empty list of batches (with any sample
weights).  Under any two choices of solver class and precision the outcome is the same: the same exception, or the same
matrices `HH`, `HT` returned by `get_corr()`; and `HH` is symmetric. -/
theorem C15_same_corr (env : Env K) (hx : env.Exact) (n : NNet K) (hn : n.corr = none)
    (bs : List (Mat K × Mat K × Option (List K))) (hbs : bs ≠ []) (s1 s2 : Solver) (p1 p2 : Prec) :
    ((feedNet env (withSolver n s1 p1) bs).bind fun m => m.getCorr) = ((feedNet env (withSolver n s2 p2) bs).bind fun m => m.getCorr) ∧
    ∀ m, feedNet env (withSolver n s1 p1) bs = .ok m →
      ∃ HH HT, m.getCorr = .ok (some (HH, HT)) ∧ HH.nrows = HH.cols ∧ ∀ i j, HH.get i j = HH.get j i := by
  -- everything is expressed by the run of the basic solver
  have key : ∀ s p, ∀ nb, nb = withSolver n .basic .double →
      (∀ m, feedNet env (withSolver n s p) bs = .ok m → ∃ m0 HH HT, feedNet env nb bs = .ok m0 ∧ m0.corr = some (HH, HT) ∧
        m.getCorr = .ok (some (HH, HT)) ∧ SymM HH) ∧
      (∀ x, feedNet env (withSolver n s p) bs = .error x → feedNet env nb bs = .error x) := by
    rintro s p nb rfl
    have hc : withSolver n s p = conv s p (withSolver n .basic .double) := by
      simp [conv, withSolver, hn]
    have hS : SymM (withSolver n .basic .double).corr0.1 := by
      have : (withSolver n .basic .double).corr = none := hn
      rw [corr0_none this, diag_store]
      exact SymM.diag _ _
    obtain ⟨h1, h2⟩ := conv_feed hx s p bs (withSolver n .basic .double) rfl hS
    rw [hc, h1]
    cases hr : feedNet env (withSolver n .basic .double) bs with
    | error x =>
      refine ⟨fun m h => (by cases h), fun y h => ?_⟩
      injection h with h
      rw [h]
    | ok m0 =>
      refine ⟨?_, by intro y h; cases h⟩
      intro m hm
      injection hm with hm
      obtain ⟨k1, k2⟩ := h2 m0 hr
      have hcs := feed_corr bs _ m0 hr (Or.inl hbs)
      obtain ⟨⟨HH, HT⟩, hcc⟩ := Option.ne_none_iff_exists'.1 hcs
      have hS0 : SymM HH := by
        have : m0.corr0.1 = HH := by unfold NNet.corr0; rw [hcc]
        rw [← this]; exact k2
      refine ⟨m0, HH, HT, rfl, hcc, ?_, hS0⟩
      rw [← hm]
      exact getCorr_store _ hS0 (by simp [conv, hcc]; rfl)
  obtain ⟨a1, a2⟩ := key s1 p1 _ rfl
  obtain ⟨b1, b2⟩ := key s2 p2 _ rfl
  constructor
  · cases h1 : feedNet env (withSolver n s1 p1) bs with
    | error x =>
      have e0 := a2 x h1
      cases h2 : feedNet env (withSolver n s2 p2) bs with
      | error y =>
        have e1 := b2 y h2
        rw [e0] at e1
        injection e1 with e1
        rw [e1]
      | ok m2 =>
        obtain ⟨m0, _, _, k, _⟩ := b1 m2 h2
        rw [e0] at k; cases k
    | ok m1 =>
      obtain ⟨m0, HH, HT, k1, k2, k3, k4⟩ := a1 m1 h1
      cases h2 : feedNet env (withSolver n s2 p2) bs with
      | error y =>
        have e1 := b2 y h2
        rw [k1] at e1; cases e1
      | ok m2 =>
        obtain ⟨m0', HH', HT', l1, l2, l3, l4⟩ := b1 m2 h2
        rw [k1] at l1
        injection l1 with l1
        subst l1
        rw [k2] at l2
        injection l2 with l2
        injection l2 with l2 l2'
        subst l2 l2'
        simp only [Except.bind]
        rw [k3, l3]
  · intro m hm
    obtain ⟨m0, HH, HT, k1, k2, k3, k4⟩ := a1 m hm
    exact ⟨HH, HT, k3, k4.square, k4.symm⟩

/-- The solvers store different matrices internally (here: the Python solver only the upper triangle) but return the same ones. -/
example : (feedNet QEnv.env (exModel 1 2 none none).nnet [(⟨2, [[1, 2], [3, 1]]⟩, ⟨1, [[1], [2]]⟩, none)]).map (·.corr)
      = .ok (some (⟨2, [[11, 5], [0, 6]]⟩, ⟨1, [[7], [4]]⟩)) ∧
    ((feedNet QEnv.env (exModel 1 2 none none).nnet [(⟨2, [[1, 2], [3, 1]]⟩, ⟨1, [[1], [2]]⟩, none)]).bind fun m => m.getCorr)
      = .ok (some (⟨2, [[11, 5], [5, 6]]⟩, ⟨1, [[7], [4]]⟩)) := by decide +kernel

/-- Argument parsing does not look at solver, precision and accelerator. -/
theorem parseArgs_solver (e : ELM K) (s : Solver) (p q : Prec) (acc : Option String) (args : List String) (kw : Kwargs K) :
    ELM.parseArgs { e with nnet := withSolver e.nnet s p, prec := q, accelerator := acc } args kw =
      ((fun f : ELM K => { f with nnet := withSolver f.nnet s p, prec := q, accelerator := acc }) (e.parseArgs args kw).1, (e.parseArgs args kw).2) := by
  have h1 : ∀ (e : ELM K) a, parseOne kw { e with nnet := withSolver e.nnet s p, prec := q, accelerator := acc } a =
      ((fun f : ELM K => { f with nnet := withSolver f.nnet s p, prec := q, accelerator := acc }) (parseOne kw e a).1, (parseOne kw e a).2) := by
    intro e a
    unfold parseOne
    have ho : (withSolver e.nnet s p).outputs = e.nnet.outputs := rfl
    simp only [ho]
    split
    · rfl
    split
    · split <;> rfl
    split
    · split
      · cases kw.w with
        | none => rfl
        | some w => simp only; split <;> rfl
      · rfl
    split
    · split <;> rfl
    split <;> rfl
  have h2 : ∀ (as : List String) (e : ELM K), parseLoop kw as { e with nnet := withSolver e.nnet s p, prec := q, accelerator := acc } =
      ((fun f : ELM K => { f with nnet := withSolver f.nnet s p, prec := q, accelerator := acc }) (parseLoop kw as e).1, (parseLoop kw as e).2) := by
    intro as
    induction as with
    | nil => intro e; rfl
    | cons a as ih =>
      intro e
      unfold parseLoop
      rw [h1]
      rcases parseOne kw e a with ⟨e', (x | u)⟩
      · rfl
      · exact ih e'
  unfold ELM.parseArgs
  have hn : (withSolver e.nnet s p).neurons = e.nnet.neurons := rfl
  simp only [hn]
  split
  · rfl
  split
  · rfl
  split
  · rfl
  have := h2 (args.map upper) { e with nnet := e.nnet.reset, rankingOP := false, kmaxOp := none, classification := none, wc := none }
  have hr : (withSolver e.nnet s p).reset = withSolver e.nnet.reset s p := rfl
  simp only [hr] at this ⊢
  rw [this]
  rcases parseLoop kw (args.map upper) { e with nnet := e.nnet.reset, rankingOP := false, kmaxOp := none, classification := none, wc := none } with ⟨e', (x | u)⟩
  · rfl
  · cases kw.batch <;> rfl

/-- C15, trained models.  Two objects that differ only in solver class, working precision and accelerator, trained in the
same call (plain training, positive regularisation), end up with the same output weights. -/
theorem C15_same_weights [IsStrictOrderedRing K] (env : Env K) (hl : Lawful env) (hx : env.Exact)
    (fs : Files K) (rnd : Rnd) (e e1 e2 : ELM K) (s : Solver) (p q : Prec)
    (acc : Option String) (X T : Mat K) (args : List String) (kw : Kwargs K) (r1 r2 : Option K)
    (hsel : "V" ∉ args ∧ "CV" ∉ args ∧ "LOO" ∉ args) (hb : 0 < kw.batch.getD e.batch) (hnorm : 0 < e.nnet.norm) (hTw : T.WF)
    (hsq : Given args "WC" → ∀ x : K, 0 ≤ x → env.sqrt x * env.sqrt x = x)
    (hT : Given args "WC" → OneHot T) (hw : ∀ ws, kw.w = some ws → ∀ x ∈ ws, 0 ≤ x)
    (h1 : e.train env fs rnd (.mat X) (.mat T) args kw = (.ok r1, e1))
    (h2 : ELM.train env fs rnd { e with nnet := withSolver e.nnet s p, prec := q, accelerator := acc } (.mat X) (.mat T) args kw = (.ok r2, e2)) :
    e1.nnet.getB = e2.nnet.getB ∧ e1.nnet.getB ≠ none := by
  obtain ⟨H, S, HT, w, p0, hN, p1, p2, p3, p4, p5, p6, p7, p8, p9, p10, p11, p12, p13, p14⟩ :=
    train_plain hx hsq hsel.1 hsel.2.1 hsel.2.2 hb hTw hT hw h1
  obtain ⟨H', S', HT', w', p0', hN', p1', p2', p3', p4', p5', p6', p7', p8', p9', p10', p11', p12', p13', p14'⟩ :=
    train_plain (e := { e with nnet := withSolver e.nnet s p, prec := q, accelerator := acc }) hx hsq hsel.1 hsel.2.1 hsel.2.2 hb hTw hT hw h2
  have hHH : H' = H := by
    have : (withSolver e.nnet s p).project env X = e.nnet.project env X := rfl
    have k : Except.ok H' = Except.ok H := p1'.symm.trans (this.trans p1)
    injection k
  subst hHH
  -- the weights of the samples agree
  have hpre : e1.classification = e2.classification ∧ e1.wc = e2.wc := by
    obtain ⟨X1, T1, ea, a1, a2, a3⟩ := train_ok h1
    obtain ⟨X2, T2, eb, b1, b2, b3⟩ := train_ok h2
    obtain ⟨_, f1, n1, c1, c2, c3⟩ := trainBody_plain hsel.1 hsel.2.1 hsel.2.2 a3
    obtain ⟨_, f2, n2, d1, d2, d3⟩ := trainBody_plain hsel.1 hsel.2.1 hsel.2.2 b3
    have hc : (⟨X1, T1⟩ : Mat K × Mat K) = (X2, T2) := by
      have : checkBoth fs (withSolver e.nnet s p) (.mat X) (.mat T) = checkBoth fs e.nnet (.mat X) (.mat T) := rfl
      have k : Except.ok (X2, T2) = Except.ok (X1, T1) := b1.symm.trans (this.trans a1)
      injection k with k
      exact k.symm
    injection hc with hc1 hc2
    subst hc1 hc2
    have hp : eb = { ea with nnet := withSolver ea.nnet s p, prec := q, accelerator := acc } := by
      have := parseArgs_solver e s p q acc args kw
      rw [a2] at this
      simp only at this
      have k := b2.symm.trans this
      injection k with k _
    obtain ⟨c, rfl⟩ := addData_fields c1
    obtain ⟨c', rfl⟩ := addData_fields d1
    rw [c3, d3, hp]
    unfold ELM.autoWc
    simp only
    split
    · simp only [Mat.map_of_exact (hx _), and_self]
    · exact ⟨rfl, rfl⟩
  have hww : ∀ s < T.nrows, w' s = w s := by
    intro s hs
    obtain ⟨x1, x2⟩ := p11 s hs
    obtain ⟨y1, y2⟩ := p11' s hs
    rw [← hpre.1] at y1 y2
    rw [← hpre.2] at y2
    by_cases hc : e1.classification = some "wc"
    · obtain ⟨l, k, i1, i2, i3⟩ := x2 hc
      obtain ⟨l', k', j1, j2, j3⟩ := y2 hc
      rw [i1] at j1
      injection j1 with j1
      subst j1
      have : k' = k := by rw [← classOf_isClass i2, ← classOf_isClass j2]
      subst this
      rw [i3] at j3
      injection j3 with j3
      injection j3 with j3
      exact j3.symm
    · rw [x1 hc, y1 hc]
  have hSS : S' = S := by
    apply Mat.ext_get p6'.wf p6.wf (by omega) (by rw [← p6'.square, ← p6.square]; omega)
    intro i j hi hj
    rw [← p6'.square] at hj
    rw [p13' i (by omega) j (by omega), p13 i (by omega) j (by omega)]
    congr 1
    apply Finset.sum_congr rfl
    intro s hs
    rw [hww s (Finset.mem_range.1 hs)]
  have hTT : HT' = HT := by
    apply Mat.ext_get p8' p8 (by omega) (by omega)
    intro i j hi hj
    rw [p14' i (by omega) j (by omega), p14 i (by omega) j (by omega)]
    apply Finset.sum_congr rfl
    intro s hs
    rw [hww s (Finset.mem_range.1 hs)]
  subst hSS hTT
  have hpd : PosDef S' := posDef_gram p6 p7 (by rw [← p6.square, p7]) (fun i j hi hj => p13 i hi j hj) hnorm p12
  obtain ⟨q1, q2, q3, q4⟩ := solveCorr_posDef hl hx e.nnet p6 hpd (Or.inr rfl) p8 (by rw [p9, p7])
  obtain ⟨u1, u2, u3, u4⟩ := solveCorr_posDef hl hx (withSolver e.nnet s p) p6 hpd (Or.inr rfl) p8 (by rw [p9, p7])
  have := posDef_cancel hpd p6.square q2 u2 q3 u3 (by rw [q4, u4]) (q1.trans u1.symm)
  rw [p5, p5']
  unfold NNet.getB
  simp only
  exact ⟨congrArg some this, by simp⟩

end Hpelm.Props
