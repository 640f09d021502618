import Verif.Props.C15_Selection
import Verif.Props.C51_ValidationCorr

/-!
# C15 — every solver gives the same on-disk training
-/

set_option linter.unusedSectionVars false

namespace Hpelm
open Spec Props
variable {K : Type} [Field K] [LinearOrder K] [IsStrictOrderedRing K] {env : Env K} {s : Solver} {p q : Prec} {acc : Option String}

theorem autoWc_convE (hx : env.Exact) (e : ELM K) (c : List K) : (convE s p q acc e).autoWc env c = convE s p q acc (e.autoWc env c) := by
  unfold ELM.autoWc
  have h1 : (convE s p q acc e).classification = e.classification := rfl
  have h2 : (convE s p q acc e).wc = e.wc := rfl
  rw [h1, h2]
  split_ifs
  · have : ∀ r, c.map (env.cast r) = c := fun r => by rw [List.map_congr_left (fun x _ => hx r x)]; simp
    simp only [this]
    rfl
  · rfl

theorem sim_hFeed (hx : env.Exact) {e : ELM K} (h : GoodN e.nnet) (X T : Mat K) (bs : List (Int × Int)) :
    RelE (fun a b => SimE s p q acc e a b)
      ((e.autoWc env (batchColSums e.nnet.outputs T bs)).feed env X.cols T.cols (cutBatches X T bs))
      (((convE s p q acc e).autoWc env (batchColSums (convE s p q acc e).nnet.outputs T bs)).feed env X.cols T.cols (cutBatches X T bs)) := by
  have ho : (convE s p q acc e).nnet.outputs = e.nnet.outputs := rfl
  rw [ho, autoWc_convE hx]
  have hn : (e.autoWc env (batchColSums e.nnet.outputs T bs)).nnet = e.nnet := autoWc_nnet _ _ _
  refine (sim_feed (s := s) (p := p) (q := q) (acc := acc) hx (cutBatches X T bs) (ic := X.cols) (oc := T.cols)
    (e := e.autoWc env (batchColSums e.nnet.outputs T bs)) (by rw [hn]; exact h)).mono ?_
  rintro c d ⟨⟨c1, c2, c3, c4⟩, -⟩
  rw [hn] at c3 c4
  exact ⟨c1, c2, c3, c4⟩

theorem sim_hAddData (hx : env.Exact) {e : ELM K} (h : GoodN e.nnet) (fs : Files K) (fX fT : DataArg K) (istart : Int) (icount : Option Int) :
    RelE (fun a b => SimE s p q acc e a.1 b.1 ∧ b.2 = a.2) (e.hAddData env fs fX fT istart icount none none)
      ((convE s p q acc e).hAddData env fs fX fT istart icount none none) := by
  unfold ELM.hAddData
  have h1 : (convE s p q acc e).nnet.neurons = e.nnet.neurons := rfl
  have h2 : checkBoth fs (convE s p q acc e).nnet fX fT = checkBoth fs e.nnet fX fT := rfl
  have h3 : (convE s p q acc e).batch = e.batch := rfl
  rw [h1, h2]
  refine RelE.same fun _ => RelE.same fun c => ?_
  obtain ⟨X, T⟩ := c
  show RelE _ (do
      let bs ← hBatches e.batch istart (rangeCount X.nrows istart icount)
      let e ← (e.autoWc env (batchColSums e.nnet.outputs T bs)).feed env X.cols T.cols (cutBatches X T bs)
      pure (e, fs)) (do
      let bs ← hBatches e.batch istart (rangeCount X.nrows istart icount)
      let e ← ((convE s p q acc e).autoWc env (batchColSums (convE s p q acc e).nnet.outputs T bs)).feed env X.cols T.cols (cutBatches X T bs)
      pure (e, fs))
  refine RelE.same fun bs => RelE.bind (sim_hFeed hx h X T bs) ?_
  intro a b hab
  exact ⟨hab, rfl⟩

/-- The results of `add_data` with two files. -/
def StoredS (a b : ELM K × Files K) : Prop := SameButSolver a.1 b.1 ∧ b.2 = a.2

theorem sim_hAddData_files (hx : env.Exact) {e : ELM K} (h : GoodN e.nnet) (fs : Files K) (fX fT : DataArg K) (istart : Int) (icount : Option Int)
    (fHH fHT : String) :
    RelE StoredS (e.hAddData env fs fX fT istart icount (some fHH) (some fHT))
      ((convE s p q acc e).hAddData env fs fX fT istart icount (some fHH) (some fHT)) := by
  unfold ELM.hAddData
  have h1 : (convE s p q acc e).nnet.neurons = e.nnet.neurons := rfl
  have h2 : checkBoth fs (convE s p q acc e).nnet fX fT = checkBoth fs e.nnet fX fT := rfl
  rw [h1, h2]
  refine RelE.same fun _ => RelE.same fun c => ?_
  obtain ⟨X, T⟩ := c
  have hg : GoodN e.nnet.reset := GoodN.fresh h.basic h.pos (reset_consistent h.cons) rfl rfl
  have hprep : RelE (fun (a b : NNet K × Files K) => a.1 = e.nnet.reset ∧ b.1 = conv s p e.nnet.reset ∧ b.2 = a.2)
      (prepareFHH fs (some fHH) (some fHT) e.nnet) (prepareFHH fs (some fHH) (some fHT) (convE s p q acc e).nnet) := by
    unfold prepareFHH
    simp only
    refine RelE.same fun f1 => RelE.same fun f2 => ?_
    exact ⟨rfl, rfl, rfl⟩
  refine RelE.bind hprep ?_
  rintro ⟨n, fs1⟩ ⟨n', fs1'⟩ ⟨k1, k2, k3⟩
  simp only at k1 k2 k3
  subst k1 k2 k3
  simp only
  obtain ⟨b, hb⟩ : ∃ b : ELM K, b = { e with nnet := e.nnet.reset } := ⟨_, rfl⟩
  have hb2 : ({ (convE s p q acc e) with nnet := conv s p e.nnet.reset } : ELM K) = convE s p q acc b := by rw [hb]; rfl
  have hbg : GoodN b.nnet := by rw [hb]; exact hg
  rw [← hb, hb2]
  have hbat : (convE s p q acc e).batch = e.batch := rfl
  have ho1 : e.nnet.reset.outputs = b.nnet.outputs := by rw [hb]
  have ho2 : (conv s p e.nnet.reset).outputs = (convE s p q acc b).nnet.outputs := by rw [hb]; rfl
  rw [hbat, ho1, ho2]
  refine RelE.same fun bs => RelE.bind (sim_hFeed hx hbg X T bs) ?_
  rintro c d ⟨rfl, g1, g2, g3⟩
  unfold ELM.storeCorr
  simp only
  have hgc : (convE s p q acc c).nnet.getCorr! = c.nnet.getCorr! := by
    cases hcc : c.nnet.corr with
    | none =>
      have : (convE s p q acc c).nnet.corr = none := by simp [convE, conv, hcc]
      unfold NNet.getCorr! NNet.getCorr
      rw [hcc, this]
      cases (convE s p q acc c).nnet.solver <;> cases c.nnet.solver <;> rfl
    | some cc =>
      obtain ⟨S, HT, _, k2, k3⟩ := sim_getCorr s p g1 (by rw [hcc]; simp)
      rw [k2]; exact k3
  rw [hgc]
  refine RelE.same fun M => ?_
  obtain ⟨HH, HT⟩ := M
  have hno : (convE s p q acc c).nnet.norm = c.nnet.norm := rfl
  simp only [hno]
  refine RelE.same fun fs2 => ?_
  refine ⟨?_, rfl⟩
  simp only
  constructor <;> (try split_ifs) <;> first | rfl | exact ⟨rfl, rfl⟩ | exact ⟨rfl, rfl, rfl⟩

theorem posDef_lead {S : Mat K} (h : SymM S) (hp : PosDef S) (l : Nat) : SymM (S.lead l l) ∧ PosDef (S.lead l l) := by
  have hr := lead_nrows S l l
  have hc : (S.lead l l).cols = min l S.nrows := by rw [lead_cols, h.square]
  have hwf := lead_WF h.wf l l
  have hget : ∀ i j, (S.lead l l).get i j = if i < l ∧ j < l then S.get i j else 0 := by
    intro i j
    split_ifs with hij
    · exact lead_get hij.1 hij.2
    · by_cases hi : i < l
      · exact Mat.get_ge_cols _ hwf (by rw [hc]; omega)
      · exact Mat.get_ge_rows _ (by rw [hr]; omega)
  have hsym : ∀ i j, (S.lead l l).get i j = (S.lead l l).get j i := by
    intro i j
    rw [hget, hget, h.symm i j]
    simp only [and_comm]
  refine ⟨⟨hwf, by rw [hr, hc], hsym⟩, hsym, ?_⟩
  rintro x ⟨i, hi, hxi⟩
  rw [hr] at hi
  have := hp.2 (fun k => if k < l then x k else 0) ⟨i, by omega, by rw [if_pos (by omega)]; exact hxi⟩
  rw [quad_sum] at this ⊢
  rw [hr, hc]
  rw [← h.square] at this
  have hsub : Finset.range (min l S.nrows) ⊆ Finset.range S.nrows := Finset.range_subset_range.2 (by omega)
  refine lt_of_lt_of_eq this ?_
  rw [← Finset.sum_subset hsub]
  · refine Finset.sum_congr rfl fun a ha => ?_
    rw [Finset.mem_range] at ha
    rw [← Finset.sum_subset hsub]
    · refine Finset.sum_congr rfl fun b hb => ?_
      rw [Finset.mem_range] at hb
      rw [if_pos (by omega), if_pos (by omega), hget, if_pos ⟨by omega, by omega⟩]
    · intro b hb hb'
      rw [Finset.mem_range] at hb hb'
      rw [if_neg (show ¬ b < l by omega)]; simp
  · intro a ha ha'
    rw [Finset.mem_range] at ha ha'
    apply Finset.sum_eq_zero
    intro b _
    rw [if_neg (show ¬ a < l by omega)]; simp

theorem solveCorr_posDef_same (hl : Lawful env) (hx : env.Exact) (n m : NNet K) {S HT : Mat K} (h : SymM S) (hp : PosDef S) (hT : HT.WF)
    (hTn : HT.nrows = S.nrows) : m.solveCorr env S HT = n.solveCorr env S HT := by
  obtain ⟨a1, a2, a3, a4⟩ := solveCorr_posDef hl hx n h hp (Or.inl rfl) hT hTn
  obtain ⟨b1, b2, b3, b4⟩ := solveCorr_posDef hl hx m h hp (Or.inl rfl) hT hTn
  exact posDef_cancel hp h.square b2 a2 b3 a3 (by rw [a4, b4]) (by rw [a1, b1])

end Hpelm

namespace Hpelm.Props
open Hpelm Spec
variable {K : Type} [Field K] [LinearOrder K] [IsStrictOrderedRing K]

theorem SameButSolver.symm {a b : ELM K} (h : SameButSolver a b) : SameButSolver b a :=
  ⟨h.neurons.symm, h.count.symm, ⟨h.sizes.1.symm, h.sizes.2.symm⟩, h.norm.symm, h.weights.symm, ⟨h.kind.1.symm, h.kind.2.symm⟩,
    ⟨h.settings.1.symm, h.settings.2.1.symm, h.settings.2.2.symm⟩⟩

theorem SameButSolver.trans {a b c : ELM K} (h : SameButSolver a b) (k : SameButSolver b c) : SameButSolver a c :=
  ⟨k.neurons.trans h.neurons, k.count.trans h.count, ⟨k.sizes.1.trans h.sizes.1, k.sizes.2.trans h.sizes.2⟩, k.norm.trans h.norm,
    k.weights.trans h.weights, ⟨k.kind.1.trans h.kind.1, k.kind.2.trans h.kind.2⟩,
    ⟨k.settings.1.trans h.settings.1, k.settings.2.1.trans h.settings.2.1, k.settings.2.2.trans h.settings.2.2⟩⟩

/-- A model without accumulated data is the basic one under another solver. -/
theorem eq_convE (e : ELM K) (h : e.nnet.corr = none) :
    e = convE e.nnet.solver e.nnet.prec e.prec e.accelerator { e with nnet := withSolver e.nnet .basic .double } := by
  have hm : ∀ m : NNet K, m.corr = none → conv m.solver m.prec (withSolver m .basic .double) = m := by
    rintro ⟨⟩ h
    simp only at h
    subst h
    rfl
  unfold convE
  simp only [hm e.nnet h]

/-- C15, training from data on disk.  Two objects that differ only in solver class, working precision and accelerator: the same on-disk
`train` call, on any range, returns the same or raises the same exception, and leaves models that agree in everything else; if it succeeds
also in the correlation matrices `get_corr()` returns. -/
theorem C15_disk_train (env : Env K) (hl : Lawful env) (hx : env.Exact) (fs : Files K) (e : ELM K) (s : Solver) (p q : Prec)
    (acc : Option String) (fX fT : DataArg K) (args : List String) (kw : Kwargs K) (hc : Consistent e.nnet) (hnorm : 0 < e.nnet.norm)
    (r1 r2 : Except PyErr Unit) (e1 e2 : ELM K) (h1 : e.hTrain env fs fX fT args kw = (r1, e1))
    (h2 : ELM.hTrain env fs { e with nnet := withSolver e.nnet s p, prec := q, accelerator := acc } fX fT args kw = (r2, e2)) :
    r2 = r1 ∧ SameButSolver e1 e2 ∧
    (r1 = .ok () → e2.nnet.getCorr = e1.nnet.getCorr ∧ ∃ HH HT, e1.nnet.getCorr = .ok (some (HH, HT))) := by
  have hck : checkBoth fs (withSolver e.nnet s p) fX fT = checkBoth fs e.nnet fX fT := rfl
  unfold ELM.hTrain at h1 h2
  rw [hck] at h2
  cases hd : checkBoth fs e.nnet fX fT with
  | error x =>
    rw [hd] at h1 h2
    simp only at h1 h2
    injection h1 with h1 h1'
    injection h2 with h2 h2'
    subst h1 h1' h2 h2'
    exact ⟨rfl, ⟨rfl, rfl, ⟨rfl, rfl⟩, rfl, rfl, ⟨rfl, rfl⟩, ⟨rfl, rfl, rfl⟩⟩, fun hv => (by cases hv)⟩
  | ok XT =>
    obtain ⟨X, T⟩ := XT
    rw [hd] at h1 h2
    simp only at h1 h2
    rw [parseArgs_solver] at h2
    have hnn := parseArgs_nnet kw args e
    cases hp : e.parseArgs args kw with
    | mk ea ra =>
      rw [hp] at h1 h2 hnn
      simp only at h1 h2 hnn
      cases ra with
      | error x =>
        simp only at h1 h2
        injection h1 with h1 h1'
        injection h2 with h2 h2'
        subst h1 h1' h2 h2'
        exact ⟨rfl, ⟨rfl, rfl, ⟨rfl, rfl⟩, rfl, rfl, ⟨rfl, rfl⟩, ⟨rfl, rfl, rfl⟩⟩, fun hv => (by cases hv)⟩
      | ok u =>
        simp only at h1 h2
        have hne : e.nnet.neurons.isEmpty = false := by
          cases hn : e.nnet.neurons.isEmpty with
          | false => rfl
          | true =>
            unfold ELM.parseArgs at hp
            rw [if_pos hn] at hp
            cases hp
        rw [if_neg (by rw [hne]; decide)] at hnn
        obtain ⟨b, hb⟩ : ∃ b : ELM K, b = { ea with nnet := withSolver ea.nnet .basic .double } := ⟨_, rfl⟩
        have hbn : b.nnet = withSolver e.nnet.reset .basic .double := by rw [hb, hnn]
        have hcr := reset_consistent hc
        have hg : GoodN b.nnet := by
          rw [hbn]
          exact GoodN.fresh rfl hnorm ⟨hcr.groups, hcr.types, hcr.count, hcr.weights, hcr.corrs⟩ rfl rfl
        have hcorr : ea.nnet.corr = none := by rw [hnn]; rfl
        have ha : ea = convE ea.nnet.solver ea.nnet.prec ea.prec ea.accelerator b := by
          rw [hb]; exact eq_convE ea hcorr
        have hb2 : ({ ea with nnet := withSolver ea.nnet s p, prec := q, accelerator := acc } : ELM K) = convE s p q acc b := by
          rw [hb]
          simp only [convE, conv, withSolver, hcorr, Option.map_none]
        rw [hb2] at h2
        rw [ha] at h1
        -- one run against the run of the basic solver
        have key : ∀ (st : Int) (s : Solver) (p q : Prec) (acc : Option String) (r : Except PyErr Unit) (f : ELM K),
            (match ELM.hAddData env fs (convE s p q acc b) (.mat X) (.mat T) st kw.icount none none with
              | .error x => (Except.error x, convE s p q acc b)
              | .ok (e2, _) => match e2.nnet.solve env with
                | .error x => (.error x, e2)
                | .ok n => (.ok (), { e2 with nnet := n })) = (r, f) →
            ∃ f0, (match ELM.hAddData env fs b (.mat X) (.mat T) st kw.icount none none with
              | .error x => (Except.error x, b)
              | .ok (e2, _) => match e2.nnet.solve env with
                | .error x => (.error x, e2)
                | .ok n => (.ok (), { e2 with nnet := n })) = (r, f0) ∧ f = convE s p q acc f0 ∧ (r = .ok () → GoodN f0.nnet ∧ f0.nnet.corr ≠ none) := by
          intro st s p q acc r f h
          have t := sim_hAddData (s := s) (p := p) (q := q) (acc := acc) hx hg fs (.mat X) (.mat T) st kw.icount
          cases k0 : ELM.hAddData env fs b (.mat X) (.mat T) st kw.icount none none with
          | error x =>
            cases k1 : ELM.hAddData env fs (convE s p q acc b) (.mat X) (.mat T) st kw.icount none none with
            | ok y => rw [k0, k1] at t; exact t.elim
            | error y =>
              rw [k0, k1] at t
              have hy : x = y := t
              rw [k1] at h
              injection h with h h'
              subst h h' hy
              exact ⟨b, rfl, rfl, fun hv => (by cases hv)⟩
          | ok y0 =>
            cases k1 : ELM.hAddData env fs (convE s p q acc b) (.mat X) (.mat T) st kw.icount none none with
            | error y => rw [k0, k1] at t; exact t.elim
            | ok y1 =>
              rw [k0, k1] at t
              rw [k1] at h
              obtain ⟨c0, g0⟩ := y0
              obtain ⟨c1, g1⟩ := y1
              obtain ⟨⟨t1, t2, t3, t4⟩, t5⟩ := t
              simp only at t1 t2 h ⊢
              subst t1
              have u := sim_solve hl hx s p t2
              have hcn : (convE s p q acc c0).nnet = conv s p c0.nnet := rfl
              rw [hcn] at h
              cases m0 : c0.nnet.solve env with
              | error x =>
                cases m1 : (conv s p c0.nnet).solve env with
                | ok y => rw [m0, m1] at u; exact u.elim
                | error y =>
                  rw [m0, m1] at u
                  have hy : x = y := u
                  rw [m1] at h
                  injection h with h h'
                  subst h h' hy
                  exact ⟨c0, rfl, rfl, fun hv => (by cases hv)⟩
              | ok n0 =>
                cases m1 : (conv s p c0.nnet).solve env with
                | error y => rw [m0, m1] at u; exact u.elim
                | ok n1 =>
                  rw [m0, m1] at u
                  obtain ⟨⟨u1, u2, u3⟩, u4⟩ := u
                  rw [m1] at h
                  simp only at h
                  injection h with h h'
                  subst h h' u1
                  exact ⟨{ c0 with nnet := n0 }, rfl, rfl, fun _ => ⟨u2, u4⟩⟩
        obtain ⟨a0, a1, a2, a3⟩ := key _ _ _ _ _ _ _ h1
        obtain ⟨b0, b1, b2, b3⟩ := key _ _ _ _ _ _ _ h2
        rw [a1] at b1
        injection b1 with b1 b1'
        subst b1 b1' a2 b2
        refine ⟨rfl, ⟨rfl, rfl, ⟨rfl, rfl⟩, rfl, rfl, ⟨rfl, rfl⟩, ⟨rfl, rfl, rfl⟩⟩, fun hv => ?_⟩
        obtain ⟨v1, v2⟩ := a3 hv
        exact (SameButSolver.of_conv ⟨rfl, v1, v2⟩ ⟨rfl, v1, v2⟩).2

/-- C15, incremental training.  Adding data to a pair of files (new or existing) by two objects that differ only in solver class, working
precision and accelerator: both raise the same exception, or both succeed and write the same files. -/
theorem C15_disk_add (env : Env K) (hx : env.Exact) (fs : Files K) (e : ELM K) (s : Solver) (p q : Prec) (acc : Option String)
    (fX fT : DataArg K) (istart : Int) (icount : Option Int) (fHH fHT : String) (hc : Consistent e.nnet) (hnorm : 0 < e.nnet.norm) :
    (∃ x, e.hAddData env fs fX fT istart icount (some fHH) (some fHT) = .error x ∧
      ELM.hAddData env fs { e with nnet := withSolver e.nnet s p, prec := q, accelerator := acc } fX fT istart icount (some fHH) (some fHT) = .error x) ∨
    (∃ e1 e2 fs', e.hAddData env fs fX fT istart icount (some fHH) (some fHT) = .ok (e1, fs') ∧
      ELM.hAddData env fs { e with nnet := withSolver e.nnet s p, prec := q, accelerator := acc } fX fT istart icount (some fHH) (some fHT) = .ok (e2, fs') ∧
      SameButSolver e1 e2) := by
  -- what was accumulated before is dropped first
  have hdrop : ∀ f : ELM K, f.hAddData env fs fX fT istart icount (some fHH) (some fHT) =
      ELM.hAddData env fs { f with nnet := { f.nnet.reset with L := f.nnet.L } } fX fT istart icount (some fHH) (some fHT) := fun f => rfl
  obtain ⟨b, hb⟩ : ∃ b : ELM K, b = { e with nnet := withSolver e.nnet.reset .basic .double } := ⟨_, rfl⟩
  have hcr := reset_consistent hc
  have hg : GoodN b.nnet := by
    rw [hb]
    exact GoodN.fresh rfl hnorm ⟨hcr.groups, hcr.types, hcr.count, hcr.weights, hcr.corrs⟩ rfl rfl
  have h1 : e.hAddData env fs fX fT istart icount (some fHH) (some fHT) =
      (convE e.nnet.solver e.nnet.prec e.prec e.accelerator b).hAddData env fs fX fT istart icount (some fHH) (some fHT) := by rw [hb]; rfl
  have h2 : ELM.hAddData env fs { e with nnet := withSolver e.nnet s p, prec := q, accelerator := acc } fX fT istart icount (some fHH) (some fHT) =
      (convE s p q acc b).hAddData env fs fX fT istart icount (some fHH) (some fHT) := by rw [hb]; rfl
  have t1 := sim_hAddData_files (s := e.nnet.solver) (p := e.nnet.prec) (q := e.prec) (acc := e.accelerator) hx hg fs fX fT istart icount fHH fHT
  have t2 := sim_hAddData_files (s := s) (p := p) (q := q) (acc := acc) hx hg fs fX fT istart icount fHH fHT
  rw [← h1] at t1
  rw [← h2] at t2
  clear h1 h2 hdrop
  cases k0 : b.hAddData env fs fX fT istart icount (some fHH) (some fHT) with
  | error x =>
    rw [k0] at t1 t2
    cases k1 : e.hAddData env fs fX fT istart icount (some fHH) (some fHT) with
    | ok y => rw [k1] at t1; exact t1.elim
    | error y =>
      cases k2 : ELM.hAddData env fs { e with nnet := withSolver e.nnet s p, prec := q, accelerator := acc } fX fT istart icount (some fHH) (some fHT) with
      | ok z => rw [k2] at t2; exact t2.elim
      | error z =>
        rw [k1] at t1
        rw [k2] at t2
        have hy : x = y := t1
        have hz : x = z := t2
        exact .inl ⟨x, by rw [hy], by rw [hz]⟩
  | ok y0 =>
    rw [k0] at t1 t2
    cases k1 : e.hAddData env fs fX fT istart icount (some fHH) (some fHT) with
    | error y => rw [k1] at t1; exact t1.elim
    | ok y =>
      cases k2 : ELM.hAddData env fs { e with nnet := withSolver e.nnet s p, prec := q, accelerator := acc } fX fT istart icount (some fHH) (some fHT) with
      | error z => rw [k2] at t2; exact t2.elim
      | ok z =>
        rw [k1] at t1
        rw [k2] at t2
        obtain ⟨y1, y2⟩ := y
        obtain ⟨z1, z2⟩ := z
        obtain ⟨u1, u2⟩ := t1
        obtain ⟨v1, v2⟩ := t2
        simp only at u1 u2 v1 v2
        exact .inr ⟨y1, z1, y2, rfl, by rw [u2, v2], u1.symm.trans v1⟩

theorem checkCorr_files {fs : Files K} {n : NNet K} {fHH fHT : String} {h5 h5' : H5 K} (hf1 : fs fHH = some h5) (hf2 : fs fHT = some h5')
    {HH HT : Mat K} (hc : checkCorr fs n fHH fHT = .ok (HH, HT)) :
    h5.data = HH ∧ h5'.data = HT ∧ HH.nrows = HH.cols ∧ HT.nrows = HH.nrows := by
  unfold checkCorr readCorr at hc
  rw [hf1, hf2] at hc
  simp only at hc
  obtain ⟨A, ha, hc⟩ := bind_ok hc
  obtain ⟨B, hb, hc⟩ := bind_ok hc
  obtain ⟨_, _, hc⟩ := bind_ok hc
  obtain ⟨_, h1, hc⟩ := bind_ok hc
  obtain ⟨_, h2, hc⟩ := bind_ok hc
  split at ha
  · cases ha
  split at hb
  · cases hb
  injection ha with ha
  injection hb with hb
  injection hc with hc
  injection hc with hc1 hc2
  have k1 := (pyAssert_ok h1)
  have k2 := (pyAssert_ok h2)
  simp only [decide_eq_true_eq] at k1 k2
  refine ⟨ha.trans hc1, hb.trans hc2, ?_, ?_⟩
  · rw [← hc1]; have := k1.1.trans k1.2.symm; injection this
  · rw [← hc1, ← hc2]; have := k2.1.trans k1.1.symm; injection this

/-- C15, solving from files.  If the file `fHH` holds a symmetric positive definite matrix (as files written by `add_data` do), two objects
that differ only in solver class, working precision and accelerator get the same output weights from `solve_corr`, or the same exception. -/
theorem C15_disk_solve (env : Env K) (hl : Lawful env) (hx : env.Exact) (fs : Files K) (e : ELM K) (s : Solver) (p q : Prec) (acc : Option String)
    (fHH fHT : String) (h5 h5' : H5 K) (hf1 : fs fHH = some h5) (hf2 : fs fHT = some h5') (hw1 : h5.data.WF) (hw2 : h5'.data.WF) (hpd : PosDef h5.data) :
    (∃ x, e.hSolveCorr env fs fHH fHT = .error x ∧
      ELM.hSolveCorr env fs { e with nnet := withSolver e.nnet s p, prec := q, accelerator := acc } fHH fHT = .error x) ∨
    (∃ e1 e2, e.hSolveCorr env fs fHH fHT = .ok e1 ∧
      ELM.hSolveCorr env fs { e with nnet := withSolver e.nnet s p, prec := q, accelerator := acc } fHH fHT = .ok e2 ∧ SameButSolver e1 e2) := by
  have hck : checkCorr fs (withSolver e.nnet s p) fHH fHT = checkCorr fs e.nnet fHH fHT := rfl
  unfold ELM.hSolveCorr
  simp only [hck]
  cases hc : checkCorr fs e.nnet fHH fHT with
  | error x => exact .inl ⟨x, rfl, rfl⟩
  | ok M =>
    obtain ⟨HH, HT⟩ := M
    obtain ⟨rfl, rfl, hsq, hTn⟩ := checkCorr_files hf1 hf2 hc
    have hB := solveCorr_posDef_same hl hx e.nnet (withSolver e.nnet s p) ⟨hw1, hsq, hpd.1⟩ hpd hw2 hTn
    simp only [bind, Except.bind]
    rw [hB]
    unfold NNet.setB
    have hL : (withSolver e.nnet s p).L = e.nnet.L := rfl
    have hO : (withSolver e.nnet s p).outputs = e.nnet.outputs := rfl
    rw [hL, hO]
    cases pyAssert (some (e.nnet.solveCorr env h5.data h5'.data).nrows = e.nnet.L) with
    | error x => exact .inl ⟨x, rfl, rfl⟩
    | ok _ =>
      cases pyAssert ((e.nnet.solveCorr env h5.data h5'.data).cols = e.nnet.outputs) with
      | error x => exact .inl ⟨x, rfl, rfl⟩
      | ok _ =>
        refine .inr ⟨_, _, rfl, rfl, ⟨rfl, rfl, ⟨rfl, rfl⟩, rfl, ?_, ⟨rfl, rfl⟩, ⟨rfl, rfl, rfl⟩⟩⟩
        have : ∀ r, env.cast r = id := fun r => funext fun x => hx r x
        simp only [NNet.getB, this]


/-- C15, choosing the number of neurons from files.  If the file `fHH` holds a symmetric positive definite matrix, `validation_corr` on two
objects that differ only in solver class, working precision and accelerator reports the same errors and confusion matrices and leaves the
same neurons and output weights, or raises the same exception. -/
theorem C15_disk_validation (env : Env K) (hl : Lawful env) (hx : env.Exact) (fs : Files K) (e : ELM K) (s : Solver) (p q : Prec)
    (acc : Option String) (fHH fHT : String) (fXv fTv : DataArg K) (Ls : List Nat) (h5 h5' : H5 K) (hf1 : fs fHH = some h5)
    (hf2 : fs fHT = some h5') (hw1 : h5.data.WF) (hw2 : h5'.data.WF) (hpd : PosDef h5.data) :
    (∃ x, e.validationCorr env fs fHH fHT fXv fTv Ls = .error x ∧
      ELM.validationCorr env fs { e with nnet := withSolver e.nnet s p, prec := q, accelerator := acc } fHH fHT fXv fTv Ls = .error x) ∨
    (∃ e1 e2 errs confs, e.validationCorr env fs fHH fHT fXv fTv Ls = .ok (e1, errs, confs) ∧
      ELM.validationCorr env fs { e with nnet := withSolver e.nnet s p, prec := q, accelerator := acc } fHH fHT fXv fTv Ls = .ok (e2, errs, confs) ∧
      SameButSolver e1 e2) := by
  obtain ⟨f, hf⟩ : ∃ f : ELM K, f = { e with nnet := withSolver e.nnet s p, prec := q, accelerator := acc } := ⟨_, rfl⟩
  suffices key : RelE (fun a b : ELM K × List (Option K) × List (Mat K) => SameButSolver a.1 b.1 ∧ b.2 = a.2)
      (e.validationCorr env fs fHH fHT fXv fTv Ls) (f.validationCorr env fs fHH fHT fXv fTv Ls) by
    rw [← hf]
    cases k1 : e.validationCorr env fs fHH fHT fXv fTv Ls with
    | error x =>
      cases k2 : f.validationCorr env fs fHH fHT fXv fTv Ls with
      | error y =>
        rw [k1, k2] at key
        have : x = y := key
        exact .inl ⟨x, rfl, by rw [this]⟩
      | ok y => rw [k1, k2] at key; exact key.elim
    | ok x =>
      cases k2 : f.validationCorr env fs fHH fHT fXv fTv Ls with
      | error y => rw [k1, k2] at key; exact key.elim
      | ok y =>
        rw [k1, k2] at key
        obtain ⟨x1, x2, x3⟩ := x
        obtain ⟨y1, y2⟩ := y
        obtain ⟨u, v⟩ := key
        simp only at u v
        exact .inr ⟨x1, y1, x2, x3, rfl, by rw [v], u⟩
  have c1 : checkBoth fs f.nnet fXv fTv = checkBoth fs e.nnet fXv fTv := by rw [hf]; rfl
  have c2 : checkCorr fs f.nnet fHH fHT = checkCorr fs e.nnet fHH fHT := by rw [hf]; rfl
  have c3 : f.batch = e.batch := by rw [hf]
  have c4 : f.nnet.outputs = e.nnet.outputs := by rw [hf]; rfl
  have c5 : f.classification = e.classification := by rw [hf]
  have c6 : f.wc = e.wc := by rw [hf]
  unfold ELM.validationCorr
  rw [c1, c2, c3, c4, c5]
  refine RelE.same fun XT => RelE.same' fun M hM => ?_
  obtain ⟨X, T⟩ := XT
  obtain ⟨HH, HT⟩ := M
  obtain ⟨rfl, rfl, hsq, hTn⟩ := checkCorr_files hf1 hf2 hM
  have hS : SymM h5.data := ⟨hw1, hsq, hpd.1⟩
  have hcand : ∀ l, f.nnet.solveCorr env (h5.data.lead l l) (h5'.data.lead l h5'.data.cols) =
      e.nnet.solveCorr env (h5.data.lead l l) (h5'.data.lead l h5'.data.cols) := by
    intro l
    obtain ⟨g1, g2⟩ := posDef_lead hS hpd l
    exact solveCorr_posDef_same hl hx e.nnet f.nnet g1 g2 (lead_WF hw2 _ _) (by rw [lead_nrows, lead_nrows, hTn])
  simp only [hcand]
  refine RelE.same fun bs => ?_
  have hup : ∀ Tb Hb w l Beta st, vcUpdate f Tb Hb w l Beta st = vcUpdate e Tb Hb w l Beta st := by
    intro Tb Hb w l Beta st
    have hconf : ∀ A B, f.confusionM A B = e.confusionM A B := by intro A B; unfold ELM.confusionM; rw [c3, c4, c5]
    unfold vcUpdate
    rw [c3, c5, c6]
    simp only [hconf]
  have hloop : ∀ bs cands ss, vcLoop env f X T cands bs ss = vcLoop env e X T cands bs ss := by
    intro bs cands
    induction bs with
    | nil => intro ss; rfl
    | cons b bs ih =>
      intro ss
      unfold vcLoop
      have hpj : ∀ X, f.nnet.project env X = e.nnet.project env X := by intro X; rw [hf]; rfl
      simp only [hpj, hup, ih]
  rw [hloop]
  refine RelE.same fun ss => ?_
  have hset : ∀ best : Nat × Mat K, RelE (fun a b : NNet K => b.neurons = a.neurons ∧ b.L = a.L ∧ (b.inputs = a.inputs ∧ b.outputs = a.outputs) ∧
      b.norm = a.norm ∧ b.getB = a.getB) ((e.nnet.prune (List.range best.1)).setB env best.2) ((f.nnet.prune (List.range best.1)).setB env best.2) := by
    intro best
    rw [hf]
    unfold NNet.setB
    refine RelE.same fun _ => RelE.same fun _ => ⟨rfl, rfl, ⟨rfl, rfl⟩, rfl, ?_⟩
    have : ∀ r, env.cast r = id := fun r => funext fun x => hx r x
    simp only [NNet.getB, this]
  by_cases hE : Ls.isEmpty = true
  · simp only [hE, if_true]
    exact rfl
  · simp only [hE]
    refine RelE.bind (hset _) ?_
    rintro a b ⟨u1, u2, u3, u4, u5⟩
    exact ⟨⟨u1, u2, u3, u4, u5, ⟨rfl, c6⟩, ⟨rfl, by rw [hf], by rw [hf]⟩⟩, rfl⟩


/-- The hypothesis of the two theorems above holds for all files made by `add_data`: starting without the files, after any number of calls,
the file `fHH`, if it exists, holds a symmetric positive definite matrix. -/
theorem C15_files_posdef (env : Env K) (hx : env.Exact) (fHH fHT : String) (hne : fHH ≠ fHT) (e0 : ELM K) (hw0 : GivenWeights e0)
    (hsq : e0.classification = some "wc" → ∀ x : K, 0 ≤ x → env.sqrt x * env.sqrt x = x) (hn0 : 0 < e0.nnet.norm) (fs : Files K)
    (P : List (List K × List K)) (hf : Fed env fHH fHT e0 fs P) (h5 : H5 K) (hf1 : fs fHH = some h5) :
    h5.data.WF ∧ PosDef h5.data ∧ ∃ h5', fs fHT = some h5' ∧ h5'.data.WF := by
  rcases fed_disk hx hne hw0 hsq hf with ⟨i1, _⟩ | ⟨g5, g5', i1, i2, _, i3⟩
  · rw [i1] at hf1; cases hf1
  rw [i1] at hf1
  injection hf1 with hf1
  subst hf1
  have hget : ∀ i j, i < width e0.nnet.neurons → j < width e0.nnet.neurons → g5.data.get i j = (if i = j then e0.nnet.norm else 0) +
      ∑ s ∈ Finset.range P.length, Hpelm.rowWt e0.classification e0.wc e0.nnet.outputs (P.getD s ([], [])).2 *
        hid env e0.nnet.neurons (P.getD s ([], [])).1 i * hid env e0.nnet.neurons (P.getD s ([], [])).1 j := by
    intro i j hi hj
    rw [i3.sumS i hi j hj]
    congr 1
    have : P.map (fun q => Hpelm.rowWt e0.classification e0.wc e0.nnet.outputs q.2 * hid env e0.nnet.neurons q.1 i * hid env e0.nnet.neurons q.1 j) =
        (List.range P.length).map (fun s => Hpelm.rowWt e0.classification e0.wc e0.nnet.outputs (P.getD s ([], [])).2 *
        hid env e0.nnet.neurons (P.getD s ([], [])).1 i * hid env e0.nnet.neurons (P.getD s ([], [])).1 j) := by
      apply List.ext_getElem
      · simp
      · intro k h1 h2
        simp only [List.length_map] at h1
        simp [h1]
    rw [this]
    rfl
  have hsym : SymM g5.data := by
    refine ⟨i3.wfS, by rw [i3.rowsS, i3.colsS], fun i j => ?_⟩
    by_cases hi : i < width e0.nnet.neurons
    · by_cases hj : j < width e0.nnet.neurons
      · rw [hget i j hi hj, hget j i hj hi]
        congr 1
        · simp only [eq_comm]
        · exact Finset.sum_congr rfl fun s _ => by ring
      · rw [Mat.get_ge_cols _ i3.wfS (by rw [i3.colsS]; omega), Mat.get_ge_rows _ (by rw [i3.rowsS]; omega)]
    · by_cases hj : j < width e0.nnet.neurons
      · rw [Mat.get_ge_rows _ (by rw [i3.rowsS]; omega), Mat.get_ge_cols _ i3.wfS (by rw [i3.colsS]; omega)]
      · rw [Mat.get_ge_rows _ (by rw [i3.rowsS]; omega), Mat.get_ge_rows _ (by rw [i3.rowsS]; omega)]
  have hwt : ∀ t, 0 ≤ Hpelm.rowWt e0.classification e0.wc e0.nnet.outputs t := by
    intro t
    unfold Hpelm.rowWt
    split_ifs with hc
    · obtain ⟨ws, a, b, _⟩ := hw0 hc
      rw [a]
      exact explicit_nonneg b _ _
    · exact zero_le_one
  exact ⟨i3.wfS, posDef_gram hsym i3.rowsS i3.colsS hget hn0 (fun s _ => hwt _), g5', i2, i3.wfT⟩


/-! ## Examples -/

/-- The hypotheses of `C15_disk_solve` and `C15_disk_validation` are met by the files of the examples of C51, on which both calls succeed
(see there). -/
example : vcFiles "hh" = some ⟨⟨2, [[7, 4], [4, 12]]⟩, none, none⟩ ∧ PosDef (⟨2, [[7, 4], [4, 12]]⟩ : Mat ℚ) := by
  refine ⟨rfl, ?_, ?_⟩
  · intro i j
    match i, j with
    | 0, 0 | 0, 1 | 1, 0 | 1, 1 => rfl
    | 0, j + 2 => simp [Mat.get]
    | 1, j + 2 => simp [Mat.get]
    | i + 2, 0 => simp [Mat.get]
    | i + 2, 1 => simp [Mat.get]
    | i + 2, j + 2 => simp [Mat.get]
  · rintro x ⟨i, hi, hx⟩
    have : quad (⟨2, [[7, 4], [4, 12]]⟩ : Mat ℚ) x = 7 * (x 0 * x 0) + 8 * (x 0 * x 1) + 12 * (x 1 * x 1) := by
      simp [quad, Mat.nrows, Mat.get, List.range_succ]
      ring
    rw [this]
    have hi : i < 2 := hi
    have h3 : 0 < x 0 * x 0 + x 1 * x 1 := by
      rcases Nat.lt_or_ge i 1 with h | h
      · have : i = 0 := by omega
        subst this
        have := mul_self_pos.2 hx
        have := mul_self_nonneg (x 1)
        linarith
      · have : i = 1 := by omega
        subst this
        have := mul_self_pos.2 hx
        have := mul_self_nonneg (x 0)
        linarith
    have := mul_self_nonneg (x 0 + x 1)
    nlinarith

/-- The three solvers on the same on-disk training call, on a range: all succeed, with the same output weights. -/
example : ∀ s ∈ [Solver.basic, Solver.python, Solver.cuda],
    (fun r : Except PyErr Unit × ELM ℚ => (r.1, r.2.nnet.getB)) (ELM.hTrain QEnv.env (fun _ => none)
      { exModel 1 2 none none with nnet := withSolver (exModel 1 2 none none).nnet s .double }
      (.mat ⟨2, [[1, 0], [0, 1], [2, 3], [1, 1]]⟩) (.mat ⟨1, [[1], [2], [3], [0]]⟩) [] { istart := some 1, icount := some 2 }) =
    (.ok (), (ELM.hTrain QEnv.env (fun _ => none) (exModel 1 2 none none)
      (.mat ⟨2, [[0, 1], [2, 3]]⟩) (.mat ⟨1, [[2], [3]]⟩) [] {}).2.nnet.getB) := by decide +kernel

/-- The three solvers adding the same data to files: all succeed and write the same. -/
example : ∀ s ∈ [Solver.basic, Solver.python, Solver.cuda],
    (ELM.hAddData QEnv.env (fun _ => none) { exModel 1 2 none none with nnet := withSolver (exModel 1 2 none none).nnet s .double }
      (.mat ⟨2, [[1, 0], [0, 1], [2, 3], [1, 1]]⟩) (.mat ⟨1, [[1], [2], [3], [0]]⟩) 0 none (some "hh") (some "ht")).map
        (fun r => ((r.2 "hh").map (·.data), (r.2 "ht").map (·.data))) =
    .ok (some ⟨2, [[7, 7], [7, 12]]⟩, some ⟨1, [[7], [11]]⟩) := by decide +kernel

end Hpelm.Props
