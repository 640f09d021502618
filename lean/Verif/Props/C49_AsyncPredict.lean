import Verif.Props.C50_AsyncTrain

/-! # C49 asynchronous prediction -/

set_option linter.unusedSectionVars false

namespace Hpelm.Props
open Spec

variable {K : Type} [Field K] [LinearOrder K]

/-- Batch `j` of the inputs. -/
def pBatch (c : PCtx K) (j : Nat) : Mat K := c.X.slice (c.bounds j).1 (c.bounds j).2

/-- What a synchronous run computes: predictions `ys` of the batches and contents `F` of the output file. -/
structure SyncRun (c : PCtx K) (ys F : Nat → Mat K) : Prop where
  pred : ∀ j < c.nb, c.f (pBatch c j) = .ok (ys j)
  write : ∀ j < c.nb, assignRows (F j) ((c.bounds j).1 - c.istart) ((c.bounds j).2 - c.istart) (ys j) = .ok (F (j + 1))

/-- Message `j` to the writer: a batch of predictions, or the request to stop. -/
def wmsg (c : PCtx K) (ys : Nat → Mat K) (j : Nat) : Option (Mat K × Int × Int) :=
  if j < c.nb then some (ys j, (c.bounds j).1 - c.istart, (c.bounds j).2 - c.istart) else none

/-- How far the main process is: `p` requests to the reader, `g` answers taken, `w` messages to the writer. -/
def PMainRel (c : PCtx K) (ys : Nat → Mat K) (s : PState K) (p g w : Nat) : Prop :=
  match s.main with
  | .loop b => p = b ∧ g = b - 1 ∧ w = b - 1 ∧ b ≤ c.nb + 1
  | .get b => p = b + 1 ∧ g = b - 1 ∧ w = b - 1 ∧ 1 ≤ b ∧ b ≤ c.nb
  | .put b y => p = b + 1 ∧ g = b ∧ w = b - 1 ∧ 1 ≤ b ∧ b ≤ c.nb ∧ y = ys (b - 1)
  | .putNone => p = c.nb + 1 ∧ g = c.nb ∧ w = c.nb
  | .joinR => p = c.nb + 1 ∧ g = c.nb ∧ w = c.nb + 1
  | .joinW => w = c.nb + 1 ∧ s.reader = .done
  | .done => s.reader = .done ∧ s.writer = .done
  | .failed _ => False

/-- The writer has received `k` of `w` messages. -/
def WInv (c : PCtx K) (ys F : Nat → Mat K) (s : PState K) (w : Nat) : Prop :=
  ∃ k ≤ w, w ≤ c.nb + 1 ∧ s.qW = (List.range' k (w - k)).map (wmsg c ys) ∧ s.file = F (min k c.nb) ∧
    match s.writer with
    | .idle => k ≤ c.nb
    | .done => k = c.nb + 1
    | .crashed => False

/-- The invariant of all reachable states. -/
def PInv (c : PCtx K) (ys F : Nat → Mat K) (s : PState K) : Prop :=
  ∃ p g w, RInv c.bounds (pBatch c) c.nb s.reader s.qIn s.qOut p g ∧ WInv c ys F s w ∧ PMainRel c ys s p g w

theorem pinv_init (c : PCtx K) (ys F : Nat → Mat K) : PInv c ys F (PState.init (F 0)) :=
  ⟨0, 0, 0, rinv_init, ⟨0, le_refl _, by omega, rfl, by simp [PState.init], by simp [PState.init]⟩, rfl, rfl, rfl, by omega⟩

theorem winv_put {c : PCtx K} {ys F : Nat → Mat K} {s : PState K} {w : Nat} (h : WInv c ys F s w) (hw : w ≤ c.nb) (hq : s.qW = [])
    {s' : PState K} (h1 : s'.qW = [wmsg c ys w]) (h2 : s'.file = s.file) (h3 : s'.writer = s.writer) : WInv c ys F s' (w + 1) := by
  obtain ⟨k, k1, k2, k3, k4, k5⟩ := h
  refine ⟨k, by omega, by omega, ?_, by rw [h2]; exact k4, by rw [h3]; exact k5⟩
  rw [range'_snoc k1, List.map_append, ← k3, hq, h1]
  rfl

theorem pinv_step {c : PCtx K} {ys F : Nat → Mat K} (hr : SyncRun c ys F) (hb : GoodBounds c.bounds c.nb) {s t : PState K} (h : PInv c ys F s)
    (hs : PStep c s t) : PInv c ys F t := by
  obtain ⟨p, g, w, hR, hW, hm⟩ := h
  unfold PMainRel at hm
  cases hs with
  | mainPut0 e =>
    simp only [e] at hm
    obtain ⟨rfl, rfl, rfl, m4⟩ := hm
    exact ⟨_, _, _, rinv_ask hR (by omega), hW, rfl, rfl, rfl, by omega⟩
  | mainPut b e hb' =>
    simp only [e] at hm
    obtain ⟨rfl, rfl, rfl, m4⟩ := hm
    exact ⟨_, _, _, rinv_ask hR (by omega), hW, rfl, rfl, rfl, by omega, hb'⟩
  | mainExit b e hb' =>
    simp only [e] at hm
    obtain ⟨rfl, rfl, rfl, m4⟩ := hm
    have : p = c.nb + 1 := by omega
    subst this
    exact ⟨_, _, _, hR, hW, rfl, rfl, rfl⟩
  | mainGet b x q y e hq hy =>
    simp only [e] at hm
    obtain ⟨rfl, rfl, rfl, m4, m5⟩ := hm
    rw [hq] at hR
    obtain ⟨r1, r2, r3⟩ := rinv_take hR
    refine ⟨_, _, _, r3, hW, rfl, by omega, rfl, m4, m5, ?_⟩
    rw [r1, hr.pred _ r2] at hy
    injection hy with hy
    exact hy.symm
  | mainFail b x q y e hq hy =>
    simp only [e] at hm
    obtain ⟨rfl, rfl, rfl, m4, m5⟩ := hm
    rw [hq] at hR
    obtain ⟨r1, r2, r3⟩ := rinv_take hR
    rw [r1, hr.pred _ r2] at hy
    cases hy
  | mainPutW b y e hq =>
    simp only [e] at hm
    obtain ⟨rfl, rfl, rfl, m4, m5, m6⟩ := hm
    refine ⟨_, _, _, hR, winv_put hW (by omega) hq (s' := _) ?_ rfl rfl, rfl, by omega, by omega, by omega⟩
    simp only [wmsg]
    rw [if_pos (by omega), m6]
  | mainPutNone e hq =>
    simp only [e] at hm
    obtain ⟨rfl, rfl, rfl⟩ := hm
    refine ⟨_, _, _, hR, winv_put hW (by omega) hq (s' := _) ?_ rfl rfl, rfl, rfl, rfl⟩
    simp only [wmsg]
    rw [if_neg (by omega)]
  | mainJoinR e he =>
    simp only [e] at hm
    obtain ⟨rfl, rfl, rfl⟩ := hm
    exact ⟨_, _, _, hR, hW, rfl, he⟩
  | mainJoinW e he =>
    simp only [e] at hm
    obtain ⟨rfl, m2⟩ := hm
    refine ⟨_, _, _, hR, hW, m2, ?_⟩
    obtain ⟨k, k1, k2, k3, k4, k5⟩ := hW
    simp only
    cases hw : s.writer with
    | idle => exact absurd hw he
    | done => rfl
    | crashed => rw [hw] at k5; exact k5.elim
  | readerGet r q e hq hlt =>
    rw [hq, e] at hR
    obtain ⟨j, j1, j2, j3⟩ := rinv_get hb.2 hR hlt
    refine ⟨p, g, w, ?_, hW, ?_⟩
    · simp only; rw [j2]; exact j3
    · unfold PMainRel
      simp only
      split at hm <;> first | exact hm | (exfalso; simp_all; done)
  | readerStop r q e hq hge =>
    rw [hq, e] at hR
    refine ⟨p, g, w, rinv_stop hb.1 hR hge, hW, ?_⟩
    unfold PMainRel
    simp only
    split at hm <;> first | exact hm | (exfalso; simp_all; done)
  | readerPut v e hq =>
    rw [hq, e] at hR
    refine ⟨p, g, w, rinv_put hR, hW, ?_⟩
    unfold PMainRel
    simp only
    split at hm <;> first | exact hm | (exfalso; simp_all; done)
  | writerWrite y a b q Y e hq hY =>
    obtain ⟨k, k1, k2, k3, k4, k5⟩ := hW
    rw [hq] at k3
    obtain ⟨e1, e2, e3⟩ := range'_uncons k3
    unfold wmsg at e2
    split at e2
    · rename_i hk
      injection e2 with e2
      injection e2 with e2 e4
      injection e4 with e4 e5
      have hmin : min k c.nb = k := by omega
      rw [hmin] at k4
      rw [k4, e2, e4, e5, hr.write k hk] at hY
      injection hY with hY
      refine ⟨p, g, w, hR, ⟨k + 1, by omega, k2, e3, ?_, ?_⟩, ?_⟩
      · simp only
        rw [← hY]
        congr 1
        omega
      · simp only [e]; omega
      · unfold PMainRel
        simp only
        split at hm <;> first | exact hm | (exfalso; simp_all; done)
    · cases e2
  | writerCrash y a b q x e hq hY =>
    obtain ⟨k, k1, k2, k3, k4, k5⟩ := hW
    rw [hq] at k3
    obtain ⟨e1, e2, e3⟩ := range'_uncons k3
    unfold wmsg at e2
    split at e2
    · rename_i hk
      injection e2 with e2
      injection e2 with e2 e4
      injection e4 with e4 e5
      have hmin : min k c.nb = k := by omega
      rw [hmin] at k4
      rw [k4, e2, e4, e5, hr.write k hk] at hY
      cases hY
    · cases e2
  | writerStop q e hq =>
    obtain ⟨k, k1, k2, k3, k4, k5⟩ := hW
    rw [hq] at k3
    obtain ⟨e1, e2, e3⟩ := range'_uncons k3
    unfold wmsg at e2
    split at e2
    · cases e2
    · rename_i hk
      rw [e] at k5
      simp only at k5
      have : k = c.nb := by omega
      subst this
      refine ⟨p, g, w, hR, ⟨c.nb + 1, by omega, k2, e3, ?_, rfl⟩, ?_⟩
      · simp only
        rw [k4]
        congr 1
        omega
      · unfold PMainRel
        simp only
        split at hm <;> first | exact hm | (exfalso; simp_all; done)

theorem pinv_run {c : PCtx K} {ys F : Nat → Mat K} (hr : SyncRun c ys F) (hb : GoodBounds c.bounds c.nb) {s : PState K}
    (h : Relation.ReflTransGen (PStep c) (PState.init (F 0)) s) : PInv c ys F s := by
  induction h with
  | refl => exact pinv_init c ys F
  | tail _ hs ih => exact pinv_step hr hb ih hs

/-- No reachable state is stuck before the end. -/
theorem pinv_progress {c : PCtx K} {ys F : Nat → Mat K} (hr : SyncRun c ys F) {s : PState K} (h : PInv c ys F s) :
    s.main = .done ∨ ∃ t, PStep c s t := by
  obtain ⟨p, g, w, hR, hW, hm⟩ := h
  unfold PMainRel at hm
  have goR : (s.reader = .idle ∧ ∃ b q, s.qIn = b :: q) → ∃ t, PStep c s t := by
    rintro ⟨e, b, q, hq⟩
    rcases lt_or_ge b.1 b.2 with hlt | hge
    · exact ⟨_, .readerGet s b q e hq hlt⟩
    · exact ⟨_, .readerStop s b q e hq hge⟩
  have goW : s.writer = .idle → s.qW ≠ [] → ∃ t, PStep c s t := by
    intro e hne
    cases hq : s.qW with
    | nil => exact absurd hq hne
    | cons m q =>
      cases m with
      | none => exact ⟨_, .writerStop s q e hq⟩
      | some v =>
        obtain ⟨y, a, b⟩ := v
        cases hY : assignRows s.file a b y with
        | ok Y => exact ⟨_, .writerWrite s y a b q Y e hq hY⟩
        | error x => exact ⟨_, .writerCrash s y a b q x e hq hY⟩
  have idle : w ≤ c.nb → s.qW ≠ [] → s.writer = .idle := by
    intro hw hne
    obtain ⟨k, k1, k2, k3, k4, k5⟩ := hW
    cases e : s.writer with
    | idle => rfl
    | done => simp only [e] at k5; omega
    | crashed => simp only [e] at k5
  cases e : s.main with
  | done => exact Or.inl rfl
  | failed x => simp only [e] at hm
  | loop b =>
    refine Or.inr ?_
    cases b with
    | zero => exact ⟨_, .mainPut0 s e⟩
    | succ b =>
      rcases Nat.lt_or_ge c.nb (b + 1) with hlt | hge
      · exact ⟨_, .mainExit s (b + 1) e hlt⟩
      · exact ⟨_, .mainPut s b e hge⟩
  | get b =>
    simp only [e] at hm
    obtain ⟨rfl, rfl, rfl, m4, m5⟩ := hm
    refine Or.inr ?_
    cases hq : s.qOut with
    | cons x q =>
      cases hy : c.f x with
      | ok y => exact ⟨_, .mainGet s b x q y e hq hy⟩
      | error y => exact ⟨_, .mainFail s b x q y e hq hy⟩
    | nil =>
      rw [hq] at hR
      rcases rinv_progress_get hR (by omega) (by omega) with h | ⟨v, h⟩
      · exact goR h
      · exact ⟨_, .readerPut s v h hq⟩
  | put b y =>
    simp only [e] at hm
    obtain ⟨rfl, rfl, rfl, m4, m5, m6⟩ := hm
    refine Or.inr ?_
    by_cases hq : s.qW = []
    · exact ⟨_, .mainPutW s _ y e hq⟩
    · exact goW (idle (by omega) hq) hq
  | putNone =>
    simp only [e] at hm
    obtain ⟨rfl, rfl, rfl⟩ := hm
    refine Or.inr ?_
    by_cases hq : s.qW = []
    · exact ⟨_, .mainPutNone s e hq⟩
    · exact goW (idle (by omega) hq) hq
  | joinR =>
    simp only [e] at hm
    obtain ⟨rfl, rfl, rfl⟩ := hm
    refine Or.inr ?_
    rcases rinv_progress_join hR with h | h
    · exact ⟨_, .mainJoinR s e h⟩
    · exact goR h
  | joinW =>
    simp only [e] at hm
    obtain ⟨rfl, m2⟩ := hm
    refine Or.inr ?_
    by_cases hw : s.writer = .idle
    · refine goW hw ?_
      obtain ⟨k, k1, k2, k3, k4, k5⟩ := hW
      simp only [hw] at k5
      intro hq
      rw [hq] at k3
      have := range'_nil k3
      omega
    · exact ⟨_, .mainJoinW s e hw⟩

/-- Steps left for the main process (weighted). -/
def pmainRank (nb : Nat) : PMain (Mat K) → Nat
  | .loop b => 8 * (nb + 2 - b) + 5
  | .get b => 8 * (nb + 1 - b) + 8
  | .put b _ => 8 * (nb + 1 - b) + 7
  | .putNone => 4
  | .joinR => 2
  | .joinW => 1
  | .done => 0
  | .failed _ => 0

/-- A bound on the number of steps left. -/
def prank (c : PCtx K) (s : PState K) : Nat :=
  pmainRank c.nb s.main + 3 * s.qIn.length + readerRank s.reader + s.qOut.length + s.qW.length + (if s.writer = .idle then 1 else 0)

theorem prank_step {c : PCtx K} {s t : PState K} (h : PStep c s t) : prank c t < prank c s := by
  unfold prank
  cases h with
  | mainPut0 e => simp only [e, pmainRank, List.length_append, List.length_singleton]; omega
  | mainPut b e hb => simp only [e, pmainRank, List.length_append, List.length_singleton]; omega
  | mainExit b e hb => simp only [e, pmainRank]; omega
  | mainGet b x q y e hq hy => simp only [e, hq, pmainRank, List.length_cons]; omega
  | mainFail b x q y e hq hy => simp only [e, hq, pmainRank, List.length_cons]; omega
  | mainPutW b y e hq => simp only [e, hq, pmainRank, List.length_singleton, List.length_nil]; omega
  | mainPutNone e hq => simp only [e, hq, pmainRank, List.length_singleton, List.length_nil]; omega
  | mainJoinR e he => simp only [e, pmainRank]; omega
  | mainJoinW e he => simp only [e, pmainRank]; omega
  | readerGet r q e hq hr => simp only [e, hq, readerRank, List.length_cons]; omega
  | readerStop r q e hq hr => simp only [e, hq, readerRank, List.length_cons]; omega
  | readerPut v e hq => simp only [e, hq, readerRank, List.length_cons, List.length_nil]; omega
  | writerWrite y a b q Y e hq hY => simp only [hq, List.length_cons]; omega
  | writerCrash y a b q x e hq hY => simp only [e, hq, List.length_cons]; simp
  | writerStop q e hq => simp only [e, hq, List.length_cons]; simp

theorem batchLoop_sync {c : PCtx K} {F0 : Mat K} {n : Nat} {Y : Mat K}
    (h : batchLoop c.f (fun b => (b.1 - c.istart, b.2 - c.istart)) c.X ((List.range' n (c.nb - n)).map c.bounds) F0 = .ok Y) :
    ∃ ys F : Nat → Mat K, F n = F0 ∧ F (max n c.nb) = Y ∧ (∀ j, n ≤ j → j < c.nb → c.f (pBatch c j) = .ok (ys j)) ∧
      ∀ j, n ≤ j → j < c.nb → assignRows (F j) ((c.bounds j).1 - c.istart) ((c.bounds j).2 - c.istart) (ys j) = .ok (F (j + 1)) := by
  obtain ⟨k, hk⟩ : ∃ k, k = c.nb - n := ⟨_, rfl⟩
  induction k generalizing n F0 with
  | zero =>
    rw [← hk] at h
    injection h with h
    exact ⟨fun _ => F0, fun _ => F0, rfl, h, fun j h1 h2 => by omega, fun j h1 h2 => by omega⟩
  | succ k ih =>
    have hk' : k = c.nb - (n + 1) := by omega
    rw [← hk, List.range'_succ, List.map_cons] at h
    unfold batchLoop at h
    obtain ⟨y, g1, h⟩ := bind_ok h
    obtain ⟨F1, g2, h⟩ := bind_ok h
    rw [hk'] at h
    obtain ⟨ys, F, f1, f2, f3, f4⟩ := ih h hk'
    refine ⟨fun j => if j = n then y else ys j, fun j => if j = n then F0 else F j, by simp, ?_, ?_, ?_⟩
    · simp only
      rw [if_neg (by omega), ← f2]
      congr 1
      omega
    · intro j h1 h2
      by_cases hj : j = n
      · subst hj; simp only [if_true]; exact g1
      · simp only [hj, if_false]; exact f3 j (by omega) h2
    · intro j h1 h2
      by_cases hj : j = n
      · subst hj
        simp only [if_true]
        rw [if_neg (by omega), f1]
        exact g2
      · simp only [hj, if_false]
        rw [if_neg (by omega)]
        exact f4 j (by omega) h2

/-- C49.  If synchronous prediction into a file succeeds, then asynchronous prediction starts, and in every execution of main process,
reader and writer: there are no infinite executions; no state is stuck before the end of the call; when the call returns, both helper
processes have ended and the output file holds the same matrix. -/
theorem C49_async_predict (env : Env K) (fs : Files K) (e : ELM K) (fX : String) (istart : Int) (icount : Option Int) (Y : Mat K)
    (hb : 0 < e.batch) (h : e.hPredict env fs (.path fX) .file istart icount = .ok Y) :
    ∃ c Y0, e.asyncPredictStart env fs fX istart icount = .ok (c, Y0) ∧ (WellFounded fun t s => PStep c s t) ∧
      ∀ s, Relation.ReflTransGen (PStep c) (PState.init Y0) s →
        (s.main = .done ∨ ∃ t, PStep c s t) ∧ (s.main = .done → s.file = Y ∧ s.reader = .done ∧ s.writer = .done) := by
  unfold ELM.hPredict at h
  obtain ⟨u1, g1, h⟩ := bind_ok h
  obtain ⟨u2, g2, h⟩ := bind_ok h
  obtain ⟨oX, g3, h⟩ := bind_ok h
  cases oX with
  | none => cases h
  | some X =>
    simp only at h
    obtain ⟨bs, g4, h⟩ := bind_ok h
    obtain ⟨Y0, g5, h⟩ := bind_ok h
    have hst : e.asyncPredictStart env fs fX istart icount = .ok (PCtx.ofCall env e X istart icount, Y0) := by
      unfold ELM.asyncPredictStart
      rw [g1]
      simp only [bind, Except.bind]
      rw [g2]
      simp only
      rw [g3]
      simp only
      rw [if_neg (by omega), g5]
      rfl
    have hc0 : 0 ≤ rangeCount X.nrows istart icount := by
      by_contra hc
      unfold makeOut at g5
      rw [if_pos (by omega)] at g5
      cases g5
    have hnb : 0 ≤ ceilDiv (rangeCount X.nrows istart icount) e.batch := ceilDiv_nonneg hb (by omega)
    obtain ⟨c, hc⟩ : ∃ c, c = PCtx.ofCall env e X istart icount := ⟨_, rfl⟩
    have hg : GoodBounds c.bounds c.nb := by rw [hc]; exact bounds_spec hb hnb
    unfold hBatches at g4
    rw [if_neg (by omega)] at g4
    injection g4 with g4
    have h' : batchLoop c.f (fun b => (b.1 - c.istart, b.2 - c.istart)) c.X ((List.range' 0 (c.nb - 0)).map c.bounds) Y0 = .ok Y := by
      rw [hc]
      rw [← g4, List.range_eq_range'] at h
      exact h
    obtain ⟨ys, F, f1, f2, f3, f4⟩ := batchLoop_sync h'
    have hr : SyncRun c ys F := ⟨fun j hj => f3 j (by omega) hj, fun j hj => f4 j (by omega) hj⟩
    rw [← hc] at hst
    refine ⟨c, Y0, hst, Subrelation.wf (fun {t s} hs => prank_step hs) (measure (prank c)).wf, ?_⟩
    intro s hs
    rw [← f1] at hs
    have hi := pinv_run hr hg hs
    refine ⟨pinv_progress hr hi, ?_⟩
    intro hd
    obtain ⟨p, g, w, _, ⟨k, k1, k2, k3, k4, k5⟩, hm⟩ := hi
    unfold PMainRel at hm
    simp only [hd] at hm
    refine ⟨?_, hm⟩
    simp only [hm.2] at k5
    rw [k4, ← f2]
    congr 1
    omega

/-- If the preparation fails, the synchronous call raises the same exception. -/
theorem C49_start_fails (env : Env K) (fs : Files K) (e : ELM K) (fX : String) (istart : Int) (icount : Option Int) (x : PyErr)
    (h : e.asyncPredictStart env fs fX istart icount = .error x) : e.hPredict env fs (.path fX) .file istart icount = .error x := by
  unfold ELM.asyncPredictStart at h
  unfold ELM.hPredict
  simp only [bind, Except.bind] at h ⊢
  cases g1 : pyAssert (!e.nnet.neurons.isEmpty) with
  | error y => rw [g1] at h; simp only at h ⊢; injection h with h; rw [h]
  | ok u =>
    rw [g1] at h
    simp only at h ⊢
    cases g2 : pyAssert e.nnet.B.isSome with
    | error y => rw [g2] at h; simp only at h ⊢; injection h with h; rw [h]
    | ok u =>
      rw [g2] at h
      simp only at h ⊢
      cases g3 : checkOne fs e.nnet.inputs (.path fX) with
      | error y => rw [g3] at h; simp only at h ⊢; injection h with h; rw [h]
      | ok v =>
        rw [g3] at h
        simp only at h ⊢
        cases v with
        | none => simp only at h ⊢; injection h with h; rw [h]
        | some X =>
          simp only at h ⊢
          unfold hBatches
          split at h
          · rename_i hz
            rw [if_pos hz]
            injection h with h
            rw [h]
          · rename_i hz
            rw [if_neg hz]
            simp only
            cases g5 : (makeOut (rangeCount X.nrows istart icount) e.nnet.outputs true : Except PyErr (Mat K)) with
            | error y => rw [g5] at h; simp only at h ⊢; injection h with h; rw [h]
            | ok w => rw [g5] at h; simp only at h; cases h

/-- Every execution can be continued to the end of the call. -/
theorem C49_async_predict_ends (env : Env K) (fs : Files K) (e : ELM K) (fX : String) (istart : Int) (icount : Option Int) (Y : Mat K)
    (hb : 0 < e.batch) (h : e.hPredict env fs (.path fX) .file istart icount = .ok Y) :
    ∃ c Y0, e.asyncPredictStart env fs fX istart icount = .ok (c, Y0) ∧ ∀ s, Relation.ReflTransGen (PStep c) (PState.init Y0) s →
        ∃ t, Relation.ReflTransGen (PStep c) s t ∧ t.main = .done ∧ t.file = Y := by
  obtain ⟨c, Y0, h1, hwf, hall⟩ := C49_async_predict env fs e fX istart icount Y hb h
  refine ⟨c, Y0, h1, ?_⟩
  intro s hs
  induction s using hwf.induction with
  | _ s ih =>
    rcases (hall s hs).1 with hd | ⟨t, ht⟩
    · exact ⟨s, .refl, hd, ((hall s hs).2 hd).1⟩
    · obtain ⟨u, hu, hu'⟩ := ih t ht (hs.tail ht)
      exact ⟨u, .head ht hu, hu'⟩

/-- The hypothesis is met by a range of three samples in batches of two. -/
example : exTrained.hPredict QEnv.env exFiles (.path "x") .file 1 none = .ok ⟨1, [[5], [6], [16]]⟩ := by decide +kernel

end Hpelm.Props
