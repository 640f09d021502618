import Verif.Props.C73_AsyncCrash

/-! # C74 asynchronous training when a reader dies -/

set_option linter.unusedSectionVars false

namespace Hpelm.Props
open Spec

variable {K σ : Type} [Field K] [LinearOrder K]

/-- How far the main process is, whether or not the readers live. -/
def TKMain (c : TCtx K σ) (m : σ) (s : TState K σ) (pX gX pT gT : Nat) : Prop :=
  match s.main with
  | .loop b => pX = b ∧ gX = b - 1 ∧ pT = b ∧ gT = b - 1 ∧ fedN c m (b - 1) = .ok s.model ∧ b ≤ c.nb.toNat + 1
  | .putT b => pX = b + 1 ∧ gX = b - 1 ∧ pT = b ∧ gT = b - 1 ∧ fedN c m (b - 1) = .ok s.model ∧ b ≤ c.nb.toNat
  | .getX b => pX = b + 1 ∧ gX = b - 1 ∧ pT = b + 1 ∧ gT = b - 1 ∧ fedN c m (b - 1) = .ok s.model ∧ 1 ≤ b ∧ b ≤ c.nb.toNat
  | .getT b => pX = b + 1 ∧ gX = b ∧ pT = b + 1 ∧ gT = b - 1 ∧ fedN c m (b - 1) = .ok s.model ∧ 1 ≤ b ∧ b ≤ c.nb.toNat ∧ s.xb = xBatch c (b - 1)
  | .joinX => fedN c m c.nb.toNat = .ok s.model
  | .joinT => fedN c m c.nb.toNat = .ok s.model
  | .done => fedN c m c.nb.toNat = .ok s.model
  | .failed x => ∃ j < c.nb.toNat, fedN c m j = .ok s.model ∧ fedN c m (j + 1) = .error x

/-- The invariant of all reachable states. -/
def TKInv (c : TCtx K σ) (m : σ) (s : TState K σ) : Prop :=
  ∃ pX gX pT gT, RKInv c.bounds (xBatch c) c.nb.toNat s.readX s.qXin s.qXout pX gX ∧
    RKInv c.bounds (tBatch c) c.nb.toNat s.readT s.qTin s.qTout pT gT ∧ TKMain c m s pX gX pT gT

theorem tk_init (c : TCtx K σ) (m : σ) : TKInv c m (TState.init m) :=
  ⟨0, 0, 0, 0, rk_init, rk_init, rfl, rfl, rfl, rfl, rfl, by omega⟩

theorem tk_step {c : TCtx K σ} {m : σ} (h0 : 0 ≤ c.nb) (hb : GoodBounds c.bounds c.nb.toNat) {s t : TState K σ} (h : TKInv c m s) (hs : TKStep c s t) :
    TKInv c m t := by
  obtain ⟨pX, gX, pT, gT, hX, hT, hm⟩ := h
  unfold TKMain at hm
  cases hs with
  | killX e => exact ⟨pX, gX, pT, gT, rk_kill hX, hT, hm⟩
  | killT e => exact ⟨pX, gX, pT, gT, hX, rk_kill hT, hm⟩
  | step _ hs =>
  cases hs with
  | mainPutX b e hb' =>
    simp only [e] at hm
    obtain ⟨rfl, rfl, rfl, rfl, m5, m6⟩ := hm
    exact ⟨_, _, _, _, rk_ask hX (by omega), hT, by simp only [TKMain]; exact ⟨trivial, trivial, trivial, trivial, m5, by omega⟩⟩
  | mainPutT b e =>
    simp only [e] at hm
    obtain ⟨rfl, rfl, rfl, rfl, m5, m6⟩ := hm
    refine ⟨_, _, _, _, hX, rk_ask hT (by omega), ?_⟩
    by_cases hz : pT = 0
    · subst hz
      simp only [TKMain, if_true]
      exact ⟨trivial, trivial, trivial, trivial, m5, by omega⟩
    · simp only [TKMain, hz, if_false]
      exact ⟨trivial, trivial, trivial, trivial, m5, by omega, m6⟩
  | mainExit b e hb' =>
    simp only [e] at hm
    obtain ⟨rfl, rfl, rfl, rfl, m5, m6⟩ := hm
    have : pT = c.nb.toNat + 1 := by omega
    subst this
    exact ⟨_, _, _, _, hX, hT, m5⟩
  | mainGetX b x q e hq =>
    simp only [e] at hm
    obtain ⟨rfl, rfl, rfl, rfl, m5, m6, m7⟩ := hm
    rw [hq] at hX
    obtain ⟨r1, r2, r3⟩ := rk_take hX
    refine ⟨_, _, _, _, r3, hT, ?_⟩
    simp only [TKMain]
    exact ⟨trivial, by omega, trivial, trivial, m5, m6, m7, r1⟩
  | mainGetT b x q m' e hq hf =>
    simp only [e] at hm
    obtain ⟨rfl, rfl, rfl, rfl, m5, m6, m7, m8⟩ := hm
    rw [hq] at hT
    obtain ⟨r1, r2, r3⟩ := rk_take hT
    refine ⟨_, _, _, _, hX, r3, ?_⟩
    simp only [TKMain]
    refine ⟨trivial, by omega, trivial, by omega, ?_, by omega⟩
    have e1 : gX + 1 - 1 = (gX - 1) + 1 := by omega
    rw [e1, fedN_succ, m5]
    simp only [Except.bind]
    rw [← m8, ← r1]
    exact hf
  | mainFail b x q y e hq hf =>
    simp only [e] at hm
    obtain ⟨rfl, rfl, rfl, rfl, m5, m6, m7, m8⟩ := hm
    rw [hq] at hT
    obtain ⟨r1, r2, r3⟩ := rk_take hT
    refine ⟨_, _, _, _, hX, r3, gX - 1, by omega, m5, ?_⟩
    rw [fedN_succ, m5]
    simp only [Except.bind]
    rw [← m8, ← r1]
    exact hf
  | mainJoinX e hr =>
    simp only [e] at hm
    exact ⟨pX, gX, pT, gT, hX, hT, hm⟩
  | mainJoinT e hr =>
    simp only [e] at hm
    exact ⟨pX, gX, pT, gT, hX, hT, hm⟩
  | readXGet r q e hq hr =>
    rw [hq, e] at hX
    obtain ⟨j, j1, j2, j3⟩ := rk_get hb.2 hX hr
    refine ⟨pX, gX, pT, gT, ?_, hT, hm⟩
    simp only; rw [j2]; exact j3
  | readXStop r q e hq hr =>
    rw [hq, e] at hX
    exact ⟨pX, gX, pT, gT, rk_stop hX, hT, hm⟩
  | readXPut v e hq =>
    rw [hq, e] at hX
    exact ⟨pX, gX, pT, gT, rk_put hX, hT, hm⟩
  | readTGet r q e hq hr =>
    rw [hq, e] at hT
    obtain ⟨j, j1, j2, j3⟩ := rk_get hb.2 hT hr
    refine ⟨pX, gX, pT, gT, hX, ?_, hm⟩
    simp only; rw [j2]; exact j3
  | readTStop r q e hq hr =>
    rw [hq, e] at hT
    exact ⟨pX, gX, pT, gT, hX, rk_stop hT, hm⟩
  | readTPut v e hq =>
    rw [hq, e] at hT
    exact ⟨pX, gX, pT, gT, hX, rk_put hT, hm⟩

/-- One for a living reader. -/
def aliveRank {V : Type} : Reader V → Nat
  | .done => 0
  | _ => 1

/-- A bound on the number of steps and deaths left. -/
def tkRank (c : TCtx K σ) (s : TState K σ) : Nat := trank c s + aliveRank s.readX + aliveRank s.readT

theorem tk_rank {c : TCtx K σ} {s t : TState K σ} (h : TKStep c s t) : tkRank c t < tkRank c s := by
  cases h with
  | step _ h =>
    have := trank_step h
    unfold tkRank
    cases h <;> simp_all [aliveRank] <;> omega
  | killX e =>
    unfold tkRank trank
    cases hr : s.readX with
    | done => exact absurd hr e
    | idle => simp only [readerRank, aliveRank]; omega
    | putting v => simp only [readerRank, aliveRank]; omega
  | killT e =>
    unfold tkRank trank
    cases hr : s.readT with
    | done => exact absurd hr e
    | idle => simp only [readerRank, aliveRank]; omega
    | putting v => simp only [readerRank, aliveRank]; omega

/-- What the processes of a call work on. -/
theorem asyncStart_feed {env : Env K} {fs : Files K} {e : ELM K} {fX fT : String} {istart : Int} {icount : Option Int} {fHH fHT : Option String}
    {c : TCtx K (ELM K)} {e0 : ELM K} {fs1 : Files K} (h : e.asyncStart env fs fX fT istart icount fHH fHT = .ok (c, e0, fs1)) :
    c.feed = feedOne env c.X.cols c.T.cols := by
  unfold ELM.asyncStart at h
  obtain ⟨u1, g1, h⟩ := bind_ok h
  obtain ⟨⟨X, T⟩, g2, h⟩ := bind_ok h
  obtain ⟨⟨n, fs2⟩, g3, h⟩ := bind_ok h
  obtain ⟨bs, g4, h⟩ := bind_ok h
  injection h with h
  injection h with h1 h2
  rw [← h1]
  rfl

/-- C74 (partial: the call can hang, see below).  Whatever readers die at whatever moment of an asynchronous training: no execution is
infinite; if the call returns, its result (model and files) is that of `add_data`; if it raises, `add_data` raises the same exception; and
at every moment the model has been fed the first batches of the range, in order and each completely. -/
theorem C74_train_crash_partial (env : Env K) (fs : Files K) (e : ELM K) (fX fT : String) (istart : Int) (icount : Option Int)
    (fHH fHT : Option String) (c : TCtx K (ELM K)) (e0 : ELM K) (fs1 : Files K) (hb : 0 < e.batch)
    (h : e.asyncStart env fs fX fT istart icount fHH fHT = .ok (c, e0, fs1)) (hr : -e.batch < rangeCount c.X.nrows istart icount) :
    (WellFounded fun t s => TKStep c s t) ∧ ∀ s, Relation.ReflTransGen (TKStep c) (TState.init e0) s →
      (s.main = .done → s.model.storeCorr fs1 fHH fHT = e.hAddData env fs (.path fX) (.path fT) istart icount fHH fHT) ∧
      (∀ x, s.main = .failed x → e.hAddData env fs (.path fX) (.path fT) istart icount fHH fHT = .error x) ∧
      ∃ j : Nat, (j : Int) ≤ c.nb ∧ e0.feed env c.X.cols c.T.cols ((List.range j).map fun i : Nat =>
        ((c.X.slice (istart + i * e.batch) (min (istart + (i + 1) * e.batch) (istart + rangeCount c.X.nrows istart icount))).rows,
         (c.T.slice (istart + i * e.batch) (min (istart + (i + 1) * e.batch) (istart + rangeCount c.X.nrows istart icount))).rows)) = .ok s.model := by
  obtain ⟨h1, h2, h3⟩ := asyncStart_spec h
  have h0 : 0 ≤ c.nb := by rw [h1]; exact ceilDiv_nonneg hb hr
  have hg : GoodBounds c.bounds c.nb.toNat := by
    rw [h2, h1]
    exact bounds_spec hb (by rw [← h1]; exact h0)
  refine ⟨Subrelation.wf (fun {t s} hs => tk_rank hs) (measure (tkRank c)).wf, ?_⟩
  intro s hs
  have hi : TKInv c e0 s := by
    induction hs with
    | refl => exact tk_init c e0
    | tail _ hs ih => exact tk_step h0 hg ih hs
  obtain ⟨pX, gX, pT, gT, _, _, hm⟩ := hi
  unfold TKMain at hm
  refine ⟨?_, ?_, ?_⟩
  · intro hd
    simp only [hd] at hm
    rw [h3, hm]
    rfl
  · intro x hx
    simp only [hx] at hm
    obtain ⟨j, hj, _, hj'⟩ := hm
    have := fedN_error hj' (c.nb.toNat - (j + 1))
    have e1 : j + 1 + (c.nb.toNat - (j + 1)) = c.nb.toNat := by omega
    rw [e1] at this
    rw [h3, this]
    rfl
  · have key : ∃ j ≤ c.nb.toNat, fedN c e0 j = .ok s.model := by
      cases e : s.main with
      | loop b => simp only [e] at hm; exact ⟨b - 1, by omega, hm.2.2.2.2.1⟩
      | putT b => simp only [e] at hm; exact ⟨b - 1, by omega, hm.2.2.2.2.1⟩
      | getX b => simp only [e] at hm; exact ⟨b - 1, by omega, hm.2.2.2.2.1⟩
      | getT b => simp only [e] at hm; exact ⟨b - 1, by omega, hm.2.2.2.2.1⟩
      | joinX => simp only [e] at hm; exact ⟨_, le_refl _, hm⟩
      | joinT => simp only [e] at hm; exact ⟨_, le_refl _, hm⟩
      | done => simp only [e] at hm; exact ⟨_, le_refl _, hm⟩
      | failed x => simp only [e] at hm; obtain ⟨j, j1, j2, _⟩ := hm; exact ⟨j, j1.le, j2⟩
    obtain ⟨j, j1, j2⟩ := key
    refine ⟨j, by omega, ?_⟩
    rw [feed_foldlM', ← j2, ← asyncStart_feed h]
    unfold fedN
    congr 1
    apply List.map_congr_left
    intro i _
    simp only [xBatch, tBatch, h2, batchBounds, Mat.slice]
    rw [add_comm istart, add_comm istart, add_comm istart]

/-- The hypotheses are met by a range of three samples in batches of two (two batches), stored on disk. -/
example : ∃ c e0 fs1, (exModel 1 2 none none).asyncStart QEnv.env exFiles "x" "t" 1 none (some "hh") (some "ht") = .ok (c, e0, fs1) ∧
    c.nb = 2 ∧ 0 < rangeCount c.X.nrows 1 none := by
  have h : ((exModel 1 2 none none).asyncStart QEnv.env exFiles "x" "t" 1 none (some "hh") (some "ht")).map
      (fun r => (r.1.nb, rangeCount r.1.X.nrows 1 none)) = .ok (2, 3) := by decide +kernel
  cases h1 : (exModel 1 2 none none).asyncStart QEnv.env exFiles "x" "t" 1 none (some "hh") (some "ht") with
  | error x => rw [h1] at h; cases h
  | ok r =>
    obtain ⟨c, e0, fs1⟩ := r
    rw [h1] at h
    simp only [Except.map, Except.ok.injEq, Prod.mk.injEq] at h
    exact ⟨c, e0, fs1, rfl, h.1, by rw [h.2]; decide⟩

/-- The property "the call ends whatever happens to the readers" is false for every call with samples: if one of the readers dies at the
start, the call neither returns nor raises. -/
theorem C74_train_hang_refuted (env : Env K) (fs : Files K) (e : ELM K) (fX fT : String) (istart : Int) (icount : Option Int)
    (fHH fHT : Option String) (c : TCtx K (ELM K)) (e0 : ELM K) (fs1 : Files K) (hb : 0 < e.batch)
    (h : e.asyncStart env fs fX fT istart icount fHH fHT = .ok (c, e0, fs1)) (hr : 0 < rangeCount c.X.nrows istart icount) :
    (∃ s0, TKStep c (TState.init e0) s0 ∧ s0.readT = .idle ∧
      ∀ s, Relation.ReflTransGen (TKStep c) s0 s → s.main ≠ .done ∧ ∀ x, s.main ≠ .failed x) ∧
    (∃ s0, TKStep c (TState.init e0) s0 ∧ s0.readX = .idle ∧
      ∀ s, Relation.ReflTransGen (TKStep c) s0 s → s.main ≠ .done ∧ ∀ x, s.main ≠ .failed x) := by
  obtain ⟨h1, h2, h3⟩ := asyncStart_spec h
  have hn : 1 ≤ c.nb := by
    obtain ⟨c1, c2⟩ := ceilDiv_spec (rangeCount c.X.nrows istart icount) e.batch hb
    rw [h1]
    by_contra hc
    have : ceilDiv (rangeCount c.X.nrows istart icount) e.batch * e.batch ≤ 0 := mul_nonpos_of_nonpos_of_nonneg (by omega) hb.le
    omega
  refine ⟨⟨_, .killX _ (by simp [TState.init]), rfl, ?_⟩, ⟨_, .killT _ (by simp [TState.init]), rfl, ?_⟩⟩
  · intro s hs
    have hi : s.readX = .done ∧ s.qXout = [] ∧
        (s.main = .loop 0 ∨ s.main = .putT 0 ∨ s.main = .loop 1 ∨ s.main = .putT 1 ∨ s.main = .getX 1) := by
      induction hs with
      | refl => exact ⟨rfl, rfl, Or.inl rfl⟩
      | tail _ hs ih =>
        obtain ⟨i1, i2, i3⟩ := ih
        cases hs with
        | killX e => exact absurd i1 e
        | killT e => exact ⟨i1, i2, i3⟩
        | step _ hs =>
          cases hs with
          | mainPutX b e hb' => refine ⟨i1, i2, ?_⟩; simp_all
          | mainPutT b e =>
            refine ⟨i1, i2, ?_⟩
            simp only [e, TMain.putT.injEq, reduceCtorEq, false_or, or_false] at i3
            rcases i3 with rfl | rfl <;> simp
          | mainExit b e hb' =>
            simp only [e, TMain.loop.injEq, reduceCtorEq, false_or, or_false] at i3
            exfalso
            omega
          | mainGetX b x q e hq => rw [hq] at i2; cases i2
          | mainGetT b x q m' e hq hf => simp [e] at i3
          | mainFail b x q y e hq hf => simp [e] at i3
          | mainJoinX e hr => simp [e] at i3
          | mainJoinT e hr => simp [e] at i3
          | readXGet r q e hq hr => rw [i1] at e; cases e
          | readXStop r q e hq hr => rw [i1] at e; cases e
          | readXPut v e hq => rw [i1] at e; cases e
          | readTGet r q e hq hr => exact ⟨i1, i2, i3⟩
          | readTStop r q e hq hr => exact ⟨i1, i2, i3⟩
          | readTPut v e hq => exact ⟨i1, i2, i3⟩
    obtain ⟨_, _, i3⟩ := hi
    refine ⟨?_, fun x => ?_⟩ <;> intro hx <;> simp [hx] at i3
  · intro s hs
    have hi : s.readT = .done ∧ s.qTout = [] ∧
        (s.main = .loop 0 ∨ s.main = .putT 0 ∨ s.main = .loop 1 ∨ s.main = .putT 1 ∨ s.main = .getX 1 ∨ s.main = .getT 1) := by
      induction hs with
      | refl => exact ⟨rfl, rfl, Or.inl rfl⟩
      | tail _ hs ih =>
        obtain ⟨i1, i2, i3⟩ := ih
        cases hs with
        | killX e => exact ⟨i1, i2, i3⟩
        | killT e => exact absurd i1 e
        | step _ hs =>
          cases hs with
          | mainPutX b e hb' => refine ⟨i1, i2, ?_⟩; simp_all
          | mainPutT b e =>
            refine ⟨i1, i2, ?_⟩
            simp only [e, TMain.putT.injEq, reduceCtorEq, false_or, or_false] at i3
            rcases i3 with rfl | rfl <;> simp
          | mainExit b e hb' =>
            simp only [e, TMain.loop.injEq, reduceCtorEq, false_or, or_false] at i3
            exfalso
            omega
          | mainGetX b x q e hq => refine ⟨i1, i2, ?_⟩; simp_all
          | mainGetT b x q m' e hq hf => rw [hq] at i2; cases i2
          | mainFail b x q y e hq hf => rw [hq] at i2; cases i2
          | mainJoinX e hr => simp [e] at i3
          | mainJoinT e hr => simp [e] at i3
          | readXGet r q e hq hr => exact ⟨i1, i2, i3⟩
          | readXStop r q e hq hr => exact ⟨i1, i2, i3⟩
          | readXPut v e hq => exact ⟨i1, i2, i3⟩
          | readTGet r q e hq hr => rw [i1] at e; cases e
          | readTStop r q e hq hr => rw [i1] at e; cases e
          | readTPut v e hq => rw [i1] at e; cases e
    obtain ⟨_, _, i3⟩ := hi
    refine ⟨?_, fun x => ?_⟩ <;> intro hx <;> simp [hx] at i3

end Hpelm.Props
