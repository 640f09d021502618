import Verif.Props.C49_AsyncPredict
import Verif.Model.AsyncCrash

/-! # C73 asynchronous prediction when a helper process dies -/

set_option linter.unusedSectionVars false

namespace Hpelm.Props
open Spec

variable {K : Type} [Field K] [LinearOrder K]

/-- The reader and its queues, dead or alive: `p` requests were put, `rc` received, `ro` answers put in the queue, `g` taken. -/
def RKInv {V : Type} (bounds : Nat → Int × Int) (val : Nat → V) (nb : Nat) (r : Reader V) (qin : List (Int × Int)) (qout : List V) (p g : Nat) :
    Prop :=
  ∃ rc ro, rc ≤ p ∧ g ≤ ro ∧ ro ≤ nb ∧ p ≤ nb + 1 ∧ qin = (List.range' rc (p - rc)).map bounds ∧ qout = (List.range' g (ro - g)).map val ∧
    match r with
    | .idle => rc = ro
    | .putting v => rc = ro + 1 ∧ v = val ro ∧ ro < nb
    | .done => True

section
variable {V : Type} {bounds : Nat → Int × Int} {val : Nat → V} {nb : Nat} {r : Reader V} {qin : List (Int × Int)} {qout : List V} {p g : Nat}

theorem rk_init : RKInv bounds val nb (.idle : Reader V) [] [] 0 0 := ⟨0, 0, le_refl _, le_refl _, by omega, by omega, rfl, rfl, rfl⟩

theorem rk_ask (h : RKInv bounds val nb r qin qout p g) (hp : p ≤ nb) : RKInv bounds val nb r (qin ++ [bounds p]) qout (p + 1) g := by
  obtain ⟨rc, ro, h1, h2, h3, h3', h4, h5, h6⟩ := h
  refine ⟨rc, ro, by omega, h2, h3, by omega, ?_, h5, h6⟩
  rw [range'_snoc h1, List.map_append, h4, List.map_singleton]

theorem rk_take {x : V} {q : List V} (h : RKInv bounds val nb r qin (x :: q) p g) : x = val g ∧ g < nb ∧ RKInv bounds val nb r qin q p (g + 1) := by
  obtain ⟨rc, ro, h1, h2, h3, h3', h4, h5, h6⟩ := h
  obtain ⟨e1, e2, e3⟩ := range'_uncons h5
  exact ⟨e2, by omega, rc, ro, h1, by omega, h3, h3', h4, e3, h6⟩

theorem rk_get {b : Int × Int} {q : List (Int × Int)} (hb : (bounds nb).2 ≤ (bounds nb).1) (h : RKInv bounds val nb .idle (b :: q) qout p g)
    (hlt : b.1 < b.2) : ∃ j < nb, b = bounds j ∧ RKInv bounds val nb (.putting (val j)) q qout p g := by
  obtain ⟨rc, ro, h1, h2, h3, h3', h4, h5, h6⟩ := h
  obtain ⟨e1, e2, e3⟩ := range'_uncons h4
  subst h6
  have hne : rc ≠ nb := by
    rintro rfl
    rw [e2] at hlt
    omega
  exact ⟨rc, by omega, e2, rc + 1, rc, by omega, h2, h3, h3', e3, h5, rfl, rfl, by omega⟩

theorem rk_stop {b : Int × Int} {q : List (Int × Int)} (h : RKInv bounds val nb .idle (b :: q) qout p g) : RKInv bounds val nb .done q qout p g := by
  obtain ⟨rc, ro, h1, h2, h3, h3', h4, h5, h6⟩ := h
  obtain ⟨e1, e2, e3⟩ := range'_uncons h4
  exact ⟨rc + 1, ro, by omega, h2, h3, h3', e3, h5, trivial⟩

theorem rk_put {v : V} (h : RKInv bounds val nb (.putting v) qin [] p g) : RKInv bounds val nb .idle qin [v] p g := by
  obtain ⟨rc, ro, h1, h2, h3, h3', h4, h5, h6, h7, h8⟩ := h
  have := range'_nil h5
  have hro : ro = g := by omega
  subst hro
  refine ⟨rc, ro + 1, h1, by omega, by omega, h3', h4, ?_, h6⟩
  have : ro + 1 - ro = 1 := by omega
  rw [this, h7]
  rfl

theorem rk_kill (h : RKInv bounds val nb r qin qout p g) : RKInv bounds val nb .done qin qout p g := by
  obtain ⟨rc, ro, h1, h2, h3, h3', h4, h5, h6⟩ := h
  exact ⟨rc, ro, h1, h2, h3, h3', h4, h5, trivial⟩

end

/-- How far the main process is, whether or not the helpers live. -/
def PKMain (c : PCtx K) (ys : Nat → Mat K) (s : PState K) (p g w : Nat) : Prop :=
  match s.main with
  | .loop b => p = b ∧ g = b - 1 ∧ w = b - 1 ∧ b ≤ c.nb + 1
  | .get b => p = b + 1 ∧ g = b - 1 ∧ w = b - 1 ∧ 1 ≤ b ∧ b ≤ c.nb
  | .put b y => p = b + 1 ∧ g = b ∧ w = b - 1 ∧ 1 ≤ b ∧ b ≤ c.nb ∧ y = ys (b - 1)
  | .putNone => p = c.nb + 1 ∧ g = c.nb ∧ w = c.nb
  | .joinR => p = c.nb + 1 ∧ g = c.nb ∧ w = c.nb + 1
  | .joinW => w = c.nb + 1
  | .done => w = c.nb + 1
  | .failed _ => False

/-- The writer has received `k` of `w` messages; a dead writer may have left a batch half written. -/
def WKInv (c : PCtx K) (ys F : Nat → Mat K) (s : PState K) (w : Nat) : Prop :=
  ∃ k ≤ w, w ≤ c.nb + 1 ∧ s.qW = (List.range' k (w - k)).map (wmsg c ys) ∧
    match s.writer with
    | .idle => k ≤ c.nb ∧ s.file = F k
    | .done => k = c.nb + 1 ∧ s.file = F c.nb
    | .crashed => RowMix (F 0) (F c.nb) s.file

/-- The invariant of all reachable states. -/
def PKInv (c : PCtx K) (ys F : Nat → Mat K) (s : PState K) : Prop :=
  ∃ p g w, RKInv c.bounds (pBatch c) c.nb s.reader s.qIn s.qOut p g ∧ WKInv c ys F s w ∧ PKMain c ys s p g w

theorem wk_put {c : PCtx K} {ys F : Nat → Mat K} {s : PState K} {w : Nat} (h : WKInv c ys F s w) (hw : w ≤ c.nb) (hq : s.qW = [])
    {s' : PState K} (h1 : s'.qW = [wmsg c ys w]) (h2 : s'.file = s.file) (h3 : s'.writer = s.writer) : WKInv c ys F s' (w + 1) := by
  obtain ⟨k, k1, k2, k3, k4⟩ := h
  refine ⟨k, by omega, by omega, ?_, ?_⟩
  · rw [range'_snoc k1, List.map_append, ← k3, hq, h1]
    rfl
  · rw [h2, h3]; exact k4

theorem pk_step {c : PCtx K} {ys F : Nat → Mat K} (hr : SyncRun c ys F) (hb : GoodBounds c.bounds c.nb)
    (hmix : ∀ k ≤ c.nb, RowMix (F 0) (F c.nb) (F k)) (hmid : ∀ k < c.nb, ∀ Z, RowMix (F k) (F (k + 1)) Z → RowMix (F 0) (F c.nb) Z)
    {s t : PState K} (h : PKInv c ys F s) (hs : PKStep c s t) : PKInv c ys F t := by
  obtain ⟨p, g, w, hR, hW, hm⟩ := h
  unfold PKMain at hm
  cases hs with
  | killReader e =>
    exact ⟨p, g, w, rk_kill hR, hW, hm⟩
  | killWriter e =>
    refine ⟨p, g, w, hR, ?_, hm⟩
    obtain ⟨k, k1, k2, k3, k4⟩ := hW
    rw [e] at k4
    refine ⟨k, k1, k2, k3, ?_⟩
    simp only
    rw [k4.2]
    exact hmix k k4.1
  | killWriting y a b q Y Z e hq hY hZ =>
    refine ⟨p, g, w, hR, ?_, hm⟩
    obtain ⟨k, k1, k2, k3, k4⟩ := hW
    rw [e] at k4
    rw [hq] at k3
    obtain ⟨e1, e2, e3⟩ := range'_uncons k3
    unfold wmsg at e2
    split at e2
    · rename_i hk
      injection e2 with e2
      injection e2 with e2 e4
      injection e4 with e4 e5
      rw [k4.2, e2, e4, e5, hr.write k hk] at hY
      injection hY with hY
      refine ⟨k + 1, by omega, k2, e3, ?_⟩
      simp only
      refine hmid k hk Z ?_
      rw [hY, ← k4.2]
      exact hZ
    · cases e2
  | step _ hs =>
  cases hs with
  | mainPut0 e =>
    simp only [e] at hm
    obtain ⟨rfl, rfl, rfl, m4⟩ := hm
    exact ⟨_, _, _, rk_ask hR (by omega), hW, rfl, rfl, rfl, by omega⟩
  | mainPut b e hb' =>
    simp only [e] at hm
    obtain ⟨rfl, rfl, rfl, m4⟩ := hm
    exact ⟨_, _, _, rk_ask hR (by omega), hW, rfl, rfl, rfl, by omega, hb'⟩
  | mainExit b e hb' =>
    simp only [e] at hm
    obtain ⟨rfl, rfl, rfl, m4⟩ := hm
    have : p = c.nb + 1 := by omega
    subst this
    exact ⟨_, _, _, hR, hW, rfl, rfl, rfl⟩
  | mainGet b x q y e hq hy =>
    simp only [e] at hm
    obtain ⟨rfl, rfl, rfl, m4, m5⟩ := hm
    rw [hq] at hR
    obtain ⟨r1, r2, r3⟩ := rk_take hR
    refine ⟨_, _, _, r3, hW, rfl, by omega, rfl, m4, m5, ?_⟩
    rw [r1, hr.pred _ r2] at hy
    injection hy with hy
    exact hy.symm
  | mainFail b x q y e hq hy =>
    simp only [e] at hm
    obtain ⟨rfl, rfl, rfl, m4, m5⟩ := hm
    rw [hq] at hR
    obtain ⟨r1, r2, r3⟩ := rk_take hR
    rw [r1, hr.pred _ r2] at hy
    cases hy
  | mainPutW b y e hq =>
    simp only [e] at hm
    obtain ⟨rfl, rfl, rfl, m4, m5, m6⟩ := hm
    refine ⟨_, _, _, hR, wk_put hW (by omega) hq (s' := _) ?_ rfl rfl, rfl, by omega, by omega, by omega⟩
    simp only [wmsg]
    rw [if_pos (by omega), m6]
  | mainPutNone e hq =>
    simp only [e] at hm
    obtain ⟨rfl, rfl, rfl⟩ := hm
    refine ⟨_, _, _, hR, wk_put hW (by omega) hq (s' := _) ?_ rfl rfl, rfl, rfl, rfl⟩
    simp only [wmsg]
    rw [if_neg (by omega)]
  | mainJoinR e he =>
    simp only [e] at hm
    obtain ⟨rfl, rfl, rfl⟩ := hm
    exact ⟨_, _, _, hR, hW, rfl⟩
  | mainJoinW e he =>
    simp only [e] at hm
    subst hm
    exact ⟨p, g, _, hR, hW, rfl⟩
  | readerGet r q e hq hlt =>
    rw [hq, e] at hR
    obtain ⟨j, j1, j2, j3⟩ := rk_get hb.2 hR hlt
    refine ⟨p, g, w, ?_, hW, hm⟩
    simp only; rw [j2]; exact j3
  | readerStop r q e hq hge =>
    rw [hq, e] at hR
    exact ⟨p, g, w, rk_stop hR, hW, hm⟩
  | readerPut v e hq =>
    rw [hq, e] at hR
    exact ⟨p, g, w, rk_put hR, hW, hm⟩
  | writerWrite y a b q Y e hq hY =>
    obtain ⟨k, k1, k2, k3, k4⟩ := hW
    rw [e] at k4
    rw [hq] at k3
    obtain ⟨e1, e2, e3⟩ := range'_uncons k3
    unfold wmsg at e2
    split at e2
    · rename_i hk
      injection e2 with e2
      injection e2 with e2 e4
      injection e4 with e4 e5
      rw [k4.2, e2, e4, e5, hr.write k hk] at hY
      injection hY with hY
      refine ⟨p, g, w, hR, ⟨k + 1, by omega, k2, e3, ?_⟩, hm⟩
      simp only [e]
      exact ⟨by omega, hY.symm⟩
    · cases e2
  | writerCrash y a b q x e hq hY =>
    obtain ⟨k, k1, k2, k3, k4⟩ := hW
    rw [e] at k4
    rw [hq] at k3
    obtain ⟨e1, e2, e3⟩ := range'_uncons k3
    unfold wmsg at e2
    split at e2
    · rename_i hk
      injection e2 with e2
      injection e2 with e2 e4
      injection e4 with e4 e5
      rw [k4.2, e2, e4, e5, hr.write k hk] at hY
      cases hY
    · cases e2
  | writerStop q e hq =>
    obtain ⟨k, k1, k2, k3, k4⟩ := hW
    rw [e] at k4
    rw [hq] at k3
    obtain ⟨e1, e2, e3⟩ := range'_uncons k3
    unfold wmsg at e2
    split at e2
    · cases e2
    · rename_i hk
      have : k = c.nb := by have := k4.1; omega
      subst this
      refine ⟨p, g, w, hR, ⟨c.nb + 1, by omega, k2, e3, ?_⟩, hm⟩
      simp only
      exact ⟨trivial, k4.2⟩

theorem assign_get {Y V Z : Mat K} {a b : Int} (h : assignRows Y a b V = .ok Z) (h0 : 0 ≤ a) (h1 : a ≤ b) (h2 : b ≤ Y.nrows) :
    Z.cols = Y.cols ∧ Z.nrows = Y.nrows ∧ ∀ i : Nat, (i : Int) < a ∨ b ≤ i → Z.rows[i]? = Y.rows[i]? := by
  have key : ∀ W : List (List K), W.length = b.toNat - a.toNat →
      (Y.rows.take a.toNat ++ W ++ Y.rows.drop b.toNat).length = Y.rows.length ∧
      ∀ i : Nat, (i : Int) < a ∨ b ≤ i → (Y.rows.take a.toNat ++ W ++ Y.rows.drop b.toNat)[i]? = Y.rows[i]? := by
    intro W hW
    have hn : Y.nrows = Y.rows.length := rfl
    refine ⟨by simp; omega, ?_⟩
    intro i hi
    rcases hi with hi | hi
    · rw [List.append_assoc, List.getElem?_append_left (by simp; omega), List.getElem?_take, if_pos (by omega)]
    · rw [List.getElem?_append_right (by simp; omega), List.getElem?_drop]
      congr 1
      simp
      omega
  unfold assignRows at h
  simp only [nrm_eq h0 (h1.trans h2), nrm_eq (h0.trans h1) h2] at h
  have hm : max a.toNat b.toNat = b.toNat := by omega
  rw [hm] at h
  split at h
  · cases h
  · split at h
    · rename_i hV
      injection h with h
      rw [← h]
      have := key V.rows (by unfold Mat.nrows at hV; omega)
      exact ⟨rfl, this.1, this.2⟩
    · split at h
      · rename_i v _
        injection h with h
        rw [← h]
        have := key (List.replicate (b.toNat - a.toNat) v) (by simp)
        exact ⟨rfl, this.1, this.2⟩
      · cases h

/-- Every row is written at most once. -/
theorem sync_rows {c : PCtx K} {ys F : Nat → Mat K} (hr : SyncRun c ys F) {batch icount : Int} (hb : 0 < batch)
    (hbd : c.bounds = batchBounds batch c.istart icount) (hnb : (c.nb : Int) = ceilDiv icount batch) (h0 : ((F 0).nrows : Int) = icount) :
    (∀ k ≤ c.nb, (F k).cols = (F 0).cols ∧ (F k).nrows = (F 0).nrows ∧ ∀ i : Nat, (k : Int) * batch ≤ i → (F k).rows[i]? = (F 0).rows[i]?) ∧
    ∀ d k, k + d = c.nb → ∀ i : Nat, (i : Int) < k * batch → (F k).rows[i]? = (F c.nb).rows[i]? := by
  have hst : ∀ k < c.nb, (F k).nrows = (F 0).nrows → (F (k + 1)).cols = (F k).cols ∧ (F (k + 1)).nrows = (F k).nrows ∧
      ∀ i : Nat, (i : Int) < k * batch ∨ ((k + 1 : Nat) : Int) * batch ≤ i → (F (k + 1)).rows[i]? = (F k).rows[i]? := by
    intro k hk hn
    have hw := hr.write k hk
    have hlt := (bounds_spec (s := c.istart) hb (icount := icount) (by omega)).1 k (by omega)
    rw [hbd] at hw
    unfold batchBounds at hw hlt
    simp only at hw hlt
    have hkb : 0 ≤ (k : Int) * batch := mul_nonneg (by omega) hb.le
    have e : ((k : Int) + 1) * batch = k * batch + batch := by ring
    obtain ⟨a1, a2, a3⟩ := assign_get hw (by omega) (by omega) (by rw [hn, h0]; omega)
    refine ⟨a1, a2, fun i hi => a3 i ?_⟩
    push_cast at hi
    rw [e] at hi
    omega
  have hA : ∀ k ≤ c.nb, (F k).cols = (F 0).cols ∧ (F k).nrows = (F 0).nrows ∧ ∀ i : Nat, (k : Int) * batch ≤ i → (F k).rows[i]? = (F 0).rows[i]? := by
    intro k
    induction k with
    | zero => intro _; exact ⟨rfl, rfl, fun _ _ => rfl⟩
    | succ k ih =>
      intro hk
      obtain ⟨i1, i2, i3⟩ := ih (by omega)
      obtain ⟨s1, s2, s3⟩ := hst k (by omega) i2
      refine ⟨s1.trans i1, s2.trans i2, fun i hi => ?_⟩
      rw [s3 i (Or.inr hi)]
      refine i3 i ?_
      push_cast at hi
      have e : ((k : Int) + 1) * batch = k * batch + batch := by ring
      omega
  refine ⟨hA, ?_⟩
  intro d
  induction d with
  | zero => intro k hk i _; have : k = c.nb := by omega
            rw [this]
  | succ d ih =>
    intro k hk i hi
    have e : ((k : Int) + 1) * batch = k * batch + batch := by ring
    rw [← ih (k + 1) (by omega) i (by push_cast; omega)]
    exact ((hst k (by omega) (hA k (by omega)).2.1).2.2 i (Or.inl hi)).symm

theorem sync_mix {c : PCtx K} {ys F : Nat → Mat K} (hr : SyncRun c ys F) {batch icount : Int} (hb : 0 < batch)
    (hbd : c.bounds = batchBounds batch c.istart icount) (hnb : (c.nb : Int) = ceilDiv icount batch) (h0 : ((F 0).nrows : Int) = icount) :
    (∀ k ≤ c.nb, RowMix (F 0) (F c.nb) (F k)) ∧ ∀ k < c.nb, ∀ Z, RowMix (F k) (F (k + 1)) Z → RowMix (F 0) (F c.nb) Z := by
  obtain ⟨h1, h2⟩ := sync_rows hr hb hbd hnb h0
  have hm : ∀ k ≤ c.nb, RowMix (F 0) (F c.nb) (F k) := by
    intro k hk
    obtain ⟨a, b, d⟩ := h1 k hk
    refine ⟨a, b, fun i => ?_⟩
    rcases lt_or_ge (i : Int) (k * batch) with hi | hi
    · exact Or.inr (h2 (c.nb - k) k (by omega) i hi)
    · exact Or.inl (d i hi)
  refine ⟨hm, fun k hk Z hZ => ?_⟩
  obtain ⟨a, b, d⟩ := hm k hk.le
  obtain ⟨a', b', d'⟩ := hm (k + 1) hk
  obtain ⟨z1, z2, z3⟩ := hZ
  refine ⟨z1.trans a, z2.trans b, fun i => ?_⟩
  rcases z3 i with h | h
  · rw [h]; exact d i
  · rw [h]; exact d' i


/-- A bound on the number of steps and deaths left. -/
def pkRank (c : PCtx K) (s : PState K) : Nat :=
  prank c s + match s.reader with
    | .done => 0
    | _ => 1

theorem pk_rank {c : PCtx K} {s t : PState K} (h : PKStep c s t) : pkRank c t < pkRank c s := by
  cases h with
  | step _ h =>
    have := prank_step h
    unfold pkRank
    cases h <;> simp_all <;> omega
  | killReader e =>
    unfold pkRank prank
    cases hr : s.reader with
    | done => exact absurd hr e
    | idle => simp only [readerRank]; omega
    | putting v => simp only [readerRank]; omega
  | killWriter e => unfold pkRank prank; simp only [e]; simp
  | killWriting w a b q Y Z e hq hY hZ => unfold pkRank prank; simp only [e, hq, List.length_cons]; simp

theorem pk_init (c : PCtx K) (ys F : Nat → Mat K) : PKInv c ys F (PState.init (F 0)) :=
  ⟨0, 0, 0, rk_init, ⟨0, le_refl _, by omega, rfl, by omega, rfl⟩, rfl, rfl, rfl, by omega⟩

/-- A successful synchronous call, cut into batches. -/
theorem sync_call {env : Env K} {fs : Files K} {e : ELM K} {fX : String} {istart : Int} {icount : Option Int} {Y : Mat K}
    (hb : 0 < e.batch) (h : e.hPredict env fs (.path fX) .file istart icount = .ok Y) :
    ∃ c ys F, e.asyncPredictStart env fs fX istart icount = .ok (c, F 0) ∧ SyncRun c ys F ∧ GoodBounds c.bounds c.nb ∧ F c.nb = Y ∧
      1 ≤ c.nb ∧ F 0 = Mat.zeros Y.nrows Y.cols ∧ (∀ k ≤ c.nb, RowMix (F 0) (F c.nb) (F k)) ∧
      ∀ k < c.nb, ∀ Z, RowMix (F k) (F (k + 1)) Z → RowMix (F 0) (F c.nb) Z := by
  unfold ELM.hPredict at h
  obtain ⟨u1, g1, h⟩ := bind_ok h
  obtain ⟨u2, g2, h⟩ := bind_ok h
  obtain ⟨oX, g3, h⟩ := bind_ok h
  cases oX with
  | none => cases h
  | some X =>
    simp only at h
    obtain ⟨bs, g4, h⟩ := bind_ok h
    obtain ⟨Y0, g5, h⟩ := bind_ok h
    have hst : e.asyncPredictStart env fs fX istart icount = .ok (PCtx.ofCall env e X istart icount, Y0) := by
      unfold ELM.asyncPredictStart
      rw [g1]
      simp only [bind, Except.bind]
      rw [g2]
      simp only
      rw [g3]
      simp only
      rw [if_neg (by omega), g5]
      rfl
    have hc0 : 0 < rangeCount X.nrows istart icount ∧ Y0 = Mat.zeros (rangeCount X.nrows istart icount).toNat e.nnet.outputs := by
      unfold makeOut at g5
      split at g5
      · cases g5
      · split at g5
        · cases g5
        · rename_i h1 h2
          injection g5 with g5
          refine ⟨?_, g5.symm⟩
          by_contra hc
          exact h2 ⟨rfl, Or.inl (by omega)⟩
    obtain ⟨c1, c2⟩ := ceilDiv_spec (rangeCount X.nrows istart icount) e.batch hb
    have hnb : 0 < ceilDiv (rangeCount X.nrows istart icount) e.batch := by
      by_contra hc
      have : ceilDiv (rangeCount X.nrows istart icount) e.batch * e.batch ≤ 0 := mul_nonpos_of_nonpos_of_nonneg (by omega) hb.le
      omega
    obtain ⟨c, hc⟩ : ∃ c, c = PCtx.ofCall env e X istart icount := ⟨_, rfl⟩
    have hg : GoodBounds c.bounds c.nb := by rw [hc]; exact bounds_spec hb hnb.le
    unfold hBatches at g4
    rw [if_neg (by omega)] at g4
    injection g4 with g4
    have h' : batchLoop c.f (fun b => (b.1 - c.istart, b.2 - c.istart)) c.X ((List.range' 0 (c.nb - 0)).map c.bounds) Y0 = .ok Y := by
      rw [hc]
      rw [← g4, List.range_eq_range'] at h
      exact h
    obtain ⟨ys, F, f1, f2, f3, f4⟩ := batchLoop_sync h'
    have hr : SyncRun c ys F := ⟨fun j hj => f3 j (by omega) hj, fun j hj => f4 j (by omega) hj⟩
    rw [← hc] at hst
    have hnc : (c.nb : Int) = ceilDiv (rangeCount X.nrows istart icount) e.batch := by
      rw [hc]; exact Int.toNat_of_nonneg hnb.le
    have hF0 : ((F 0).nrows : Int) = rangeCount X.nrows istart icount := by
      rw [f1, hc0.2, Mat.zeros_nrows]
      exact Int.toNat_of_nonneg hc0.1.le
    have hbd : c.bounds = batchBounds e.batch c.istart (rangeCount X.nrows istart icount) := by rw [hc]; rfl
    obtain ⟨m1, m2⟩ := sync_mix hr hb hbd hnc hF0
    have hfin : F c.nb = Y := by
      rw [← f2]; congr 1
    obtain ⟨q1, q2, _⟩ := (sync_rows hr hb hbd hnc hF0).1 c.nb (le_refl _)
    refine ⟨c, ys, F, by rw [f1]; exact hst, hr, hg, hfin, by omega, ?_, m1, m2⟩
    rw [← hfin, q1, q2, f1, hc0.2, Mat.zeros_nrows]
    rfl

/-- C73 (partial: the call can hang and can lose data silently, see below).  Whatever helper processes die at whatever moment of an
asynchronous prediction: no execution is infinite; the call raises no exception; each row of the output file is at all times a row of zeros
or the right prediction of its sample; and if the call returns and the writer was not killed, the file holds the synchronous result. -/
theorem C73_crash_partial (env : Env K) (fs : Files K) (e : ELM K) (fX : String) (istart : Int) (icount : Option Int) (Y : Mat K)
    (hb : 0 < e.batch) (h : e.hPredict env fs (.path fX) .file istart icount = .ok Y) :
    ∃ c Y0, e.asyncPredictStart env fs fX istart icount = .ok (c, Y0) ∧ (WellFounded fun t s => PKStep c s t) ∧
      ∀ s, Relation.ReflTransGen (PKStep c) (PState.init Y0) s →
        (∀ x, s.main ≠ .failed x) ∧
        (s.file.nrows = Y.nrows ∧ s.file.cols = Y.cols ∧
          ∀ (i : Nat) row, s.file.rows[i]? = some row → row = List.replicate Y.cols 0 ∨ Y.rows[i]? = some row) ∧
        (s.main = .done → s.writer = .done → s.file = Y) := by
  obtain ⟨c, ys, F, h1, hr, hg, hY, hn, hF0, m1, m2⟩ := sync_call hb h
  refine ⟨c, F 0, h1, Subrelation.wf (fun {t s} hs => pk_rank hs) (measure (pkRank c)).wf, ?_⟩
  intro s hs
  have hi : PKInv c ys F s := by
    induction hs with
    | refl => exact pk_init c ys F
    | tail _ hs ih => exact pk_step hr hg m1 m2 ih hs
  obtain ⟨p, g, w, hR, ⟨k, k1, k2, k3, k4⟩, hm⟩ := hi
  have hmix : RowMix (F 0) (F c.nb) s.file := by
    cases hw : s.writer with
    | idle => simp only [hw] at k4; rw [k4.2]; exact m1 k k4.1
    | done => simp only [hw] at k4; rw [k4.2]; exact m1 _ (le_refl _)
    | crashed => simp only [hw] at k4; exact k4
  refine ⟨?_, ?_, ?_⟩
  · intro x hx
    unfold PKMain at hm
    simp only [hx] at hm
  · obtain ⟨q1, q2, q3⟩ := hmix
    refine ⟨by rw [q2, hF0, Mat.zeros_nrows], by rw [q1, hF0]; rfl, fun i row hrow => ?_⟩
    rcases q3 i with hq | hq
    · left
      rw [hrow, hF0] at hq
      have hmem := List.mem_of_getElem? hq.symm
      simp only [Mat.zeros, Mat.ofFn, List.mem_map] at hmem
      obtain ⟨a, _, ha⟩ := hmem
      rw [← ha]
      simp
    · right
      rw [← hY, ← hq, hrow]
  · intro hd hw
    simp only [hw] at k4
    rw [k4.2, hY]

/-- The hypothesis is met by a range of three samples in batches of two. -/
example : exTrained.hPredict QEnv.env exFiles (.path "x") .file 1 none = .ok ⟨1, [[5], [6], [16]]⟩ := by decide +kernel

/-- The property "the call ends whatever happens to the helper processes" is false for every call: if the reader dies at the start, or
the writer does, the call never returns. -/
theorem C73_hang_refuted (env : Env K) (fs : Files K) (e : ELM K) (fX : String) (istart : Int) (icount : Option Int) (Y : Mat K)
    (hb : 0 < e.batch) (h : e.hPredict env fs (.path fX) .file istart icount = .ok Y) :
    ∃ c Y0, e.asyncPredictStart env fs fX istart icount = .ok (c, Y0) ∧
      (∃ s0, PKStep c (PState.init Y0) s0 ∧ s0.writer = .idle ∧
        ∀ s, Relation.ReflTransGen (PKStep c) s0 s → s.main ≠ .done ∧ ∀ x, s.main ≠ .failed x) ∧
      (∃ s0, PKStep c (PState.init Y0) s0 ∧ s0.reader = .idle ∧
        ∀ s, Relation.ReflTransGen (PKStep c) s0 s → s.main ≠ .done ∧ ∀ x, s.main ≠ .failed x) := by
  obtain ⟨c, ys, F, h1, hr, hg, hY, hn, hF0, m1, m2⟩ := sync_call hb h
  refine ⟨c, F 0, h1, ?_, ?_⟩
  · refine ⟨_, .killReader _ (by simp [PState.init]), rfl, ?_⟩
    intro s hs
    have hi : s.reader = .done ∧ s.qOut = [] ∧ (s.main = .loop 0 ∨ s.main = .loop 1 ∨ s.main = .get 1) := by
      induction hs with
      | refl => exact ⟨rfl, rfl, Or.inl rfl⟩
      | tail _ hs ih =>
        obtain ⟨i1, i2, i3⟩ := ih
        cases hs with
        | killReader e => exact absurd i1 e
        | killWriter e => exact ⟨i1, i2, i3⟩
        | killWriting y a b q Y Z e hq hY hZ => exact ⟨i1, i2, i3⟩
        | step _ hs =>
          cases hs with
          | mainPut0 e => exact ⟨i1, i2, Or.inr (Or.inl rfl)⟩
          | mainPut b e hb' =>
            rw [e] at i3
            have hb0 : b = 0 := by
              rcases i3 with i3 | i3 | i3
              · cases i3
              · injection i3 with i3; omega
              · cases i3
            subst hb0
            exact ⟨i1, i2, Or.inr (Or.inr rfl)⟩
          | mainExit b e hb' =>
            rw [e] at i3
            rcases i3 with i3 | i3 | i3
            · injection i3 with i3; omega
            · injection i3 with i3; omega
            · cases i3
          | mainGet b x q y e hq hy => rw [hq] at i2; cases i2
          | mainFail b x q y e hq hy => rw [hq] at i2; cases i2
          | mainPutW b y e hq => rw [e] at i3; rcases i3 with i3 | i3 | i3 <;> cases i3
          | mainPutNone e hq => rw [e] at i3; rcases i3 with i3 | i3 | i3 <;> cases i3
          | mainJoinR e he => rw [e] at i3; rcases i3 with i3 | i3 | i3 <;> cases i3
          | mainJoinW e he => rw [e] at i3; rcases i3 with i3 | i3 | i3 <;> cases i3
          | readerGet r q e hq hlt => rw [i1] at e; cases e
          | readerStop r q e hq hge => rw [i1] at e; cases e
          | readerPut v e hq => rw [i1] at e; cases e
          | writerWrite y a b q Y e hq hY => exact ⟨i1, i2, i3⟩
          | writerCrash y a b q x e hq hY => exact ⟨i1, i2, i3⟩
          | writerStop q e hq => exact ⟨i1, i2, i3⟩
    obtain ⟨_, _, i3⟩ := hi
    refine ⟨?_, fun x => ?_⟩ <;> rcases i3 with i3 | i3 | i3 <;> rw [i3] <;> nofun
  · refine ⟨_, .killWriter _ rfl, rfl, ?_⟩
    intro s hs
    have hi : PKInv c ys F s ∧ s.writer = .crashed ∧ ((s.qW = [] ∧ (s.main = .loop 0 ∨ s.main = .loop 1 ∨ s.main = .get 1 ∨ ∃ y, s.main = .put 1 y)) ∨
        (s.qW ≠ [] ∧ (s.main = .loop 2 ∨ s.main = .get 2 ∨ (∃ y, s.main = .put 2 y) ∨ s.main = .putNone))) := by
      induction hs with
      | refl => exact ⟨pk_step hr hg m1 m2 (pk_init c ys F) (.killWriter _ rfl), rfl, Or.inl ⟨rfl, Or.inl rfl⟩⟩
      | tail _ hs ih =>
        obtain ⟨i0, i1, i2⟩ := ih
        refine ⟨pk_step hr hg m1 m2 i0 hs, ?_⟩
        cases hs with
        | killReader e => exact ⟨i1, i2⟩
        | killWriter e => rw [i1] at e; cases e
        | killWriting y a b q Y Z e hq hY hZ => rw [i1] at e; cases e
        | step _ hs =>
          cases hs with
          | mainPut0 e => simp_all
          | mainPut b e hb' => refine ⟨i1, ?_⟩; simp_all
          | mainExit b e hb' => refine ⟨i1, ?_⟩; simp_all; rcases i2 with ⟨_, h | h⟩ | ⟨h, _⟩ <;> [omega; omega; exact h]
          | mainGet b x q y e hq hy => refine ⟨i1, ?_⟩; simp_all
          | mainFail b x q y e hq hy =>
            have := pk_step hr hg m1 m2 i0 (.step _ _ (.mainFail _ b x q y e hq hy))
            obtain ⟨p, g, w, _, _, hm⟩ := this
            exact hm.elim
          | mainPutW b y e hq => refine ⟨i1, ?_⟩; simp_all
          | mainPutNone e hq => refine ⟨i1, ?_⟩; simp_all
          | mainJoinR e he => refine ⟨i1, ?_⟩; simp_all
          | mainJoinW e he => refine ⟨i1, ?_⟩; simp_all
          | readerGet r q e hq hlt => exact ⟨i1, i2⟩
          | readerStop r q e hq hge => exact ⟨i1, i2⟩
          | readerPut v e hq => exact ⟨i1, i2⟩
          | writerWrite y a b q Y e hq hY => rw [i1] at e; cases e
          | writerCrash y a b q x e hq hY => rw [i1] at e; cases e
          | writerStop q e hq => rw [i1] at e; cases e
    obtain ⟨_, _, i3⟩ := hi
    refine ⟨?_, fun x => ?_⟩ <;> intro hx <;> simp [hx] at i3

/-- A call with one batch whose writer dies while it writes. -/
theorem lost_batch {c : PCtx K} {Y0 Y y : Mat K} (hn : c.nb = 1) (hg : GoodBounds c.bounds c.nb) (hf : c.f (pBatch c 0) = .ok y)
    (hY : assignRows Y0 ((c.bounds 0).1 - c.istart) ((c.bounds 0).2 - c.istart) y = .ok Y) :
    ∃ s, Relation.ReflTransGen (PKStep c) (PState.init Y0) s ∧ s.main = .done ∧ s.reader = .done ∧ s.file = Y0 := by
  have h0 := hg.1 0 (by omega)
  have h1 := hg.2
  rw [hn] at h1
  refine ⟨_, .head (.step _ _ (.mainPut0 _ rfl)) <| .head (.step _ _ (.mainPut _ 0 rfl (by omega))) <|
    .head (.step _ _ (.readerGet _ _ _ rfl rfl h0)) <| .head (.step _ _ (.readerPut _ _ rfl rfl)) <|
    .head (.step _ _ (.mainGet _ _ _ _ _ rfl rfl hf)) <| .head (.step _ _ (.mainPutW _ _ _ rfl rfl)) <|
    .head (.killWriting _ _ _ _ _ _ Y0 rfl rfl hY ⟨rfl, rfl, fun _ => Or.inl rfl⟩) <|
    .head (.step _ _ (.mainExit _ _ rfl (by omega))) <| .head (.step _ _ (.mainPutNone _ rfl rfl)) <|
    .head (.step _ _ (.readerStop _ _ _ rfl rfl h1)) <| .head (.step _ _ (.mainJoinR _ rfl rfl)) <|
    .head (.step _ _ (.mainJoinW _ rfl (by nofun))) .refl, rfl, rfl, rfl⟩

/-- The property "if the call returns, the output is complete" is false: the writer dies while it writes the last batch, the call returns
normally and the output file lacks predictions. -/
theorem C73_silent_loss_refuted :
    ∃ (e : ELM ℚ) (fs : Files ℚ) (c : PCtx ℚ) (Y0 Y : Mat ℚ), 0 < e.batch ∧
      e.hPredict QEnv.env fs (.path "x") .file 1 (some 2) = .ok Y ∧ e.asyncPredictStart QEnv.env fs "x" 1 (some 2) = .ok (c, Y0) ∧
      ∃ s, Relation.ReflTransGen (PKStep c) (PState.init Y0) s ∧ s.main = .done ∧ s.file ≠ Y := by
  have hp : exTrained.hPredict QEnv.env exFiles (.path "x") .file 1 (some 2) = .ok ⟨1, [[5], [6]]⟩ := by decide +kernel
  obtain ⟨c, ys, F, h1, hr, hg, hY, hn, hF0, m1, m2⟩ := sync_call (by decide +kernel) hp
  have hn1 : c.nb = 1 := by
    have : (match exTrained.asyncPredictStart QEnv.env exFiles "x" 1 (some 2) with
      | .ok (c, _) => c.nb
      | .error _ => 0) = 1 := by decide +kernel
    rw [h1] at this
    exact this
  obtain ⟨s, s1, s2, _, s3⟩ := lost_batch hn1 hg (hr.pred 0 (by omega)) (hr.write 0 (by omega))
  refine ⟨exTrained, exFiles, c, F 0, _, by decide +kernel, hp, h1, s, s1, s2, ?_⟩
  rw [s3, hF0]
  decide +kernel

end Hpelm.Props
