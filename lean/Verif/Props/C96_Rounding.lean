import Verif.Lemmas.RoundingRun
import Verif.Lemmas.FloatRound
import Verif.Lemmas.Network
import Verif.Lemmas.QEnv
import Verif.Lemmas.Invariant
import Verif.Props.C14_Ridge

/-!
# C96, C97 Rounding errors of training data accumulation, prediction and the mean squared error
-/

set_option linter.unusedSectionVars false
namespace Hpelm.Props
open Hpelm Spec
variable {K : Type} [Field K] [LinearOrder K] [IsStrictOrderedRing K]

/-- C96.  Let the working precision round with unit roundoff `u`, and let a fresh network be fed any number of batches of any sizes
without weights, the sums being formed in any order.  Then every entry of the matrices returned by `get_corr` differs from
the exact sum over all samples by at most `(1+u)^(N+1) - 1` (`HH`) or `(1+u)^(N+2) - 1` (`HT`) times the sum of absolute
values; `N` is the number of samples.  The bound does not depend on the batches. -/
theorem C96_accumulated (env : Env K) (u : K) (n n' : NNet K) (L : Nat) (hr : Rounding (env.cast n.prec) u)
    (hL : n.L = some L) (h0 : n.corr = none) (hnorm : env.cast n.prec n.norm = n.norm)
    (bs : List (HBatch K)) (hbs : bs ≠ []) (hf : ∀ b ∈ bs, Fit L n.outputs b) (hw : ∀ b ∈ bs, b.wc = none)
    (h : n.FeedR env bs n') (HH HT : Mat K) (hg : n'.getCorrR env = some (HH, HT)) :
    (HH.nrows = L ∧ HH.cols = L ∧ HT.nrows = L ∧ HT.cols = n.outputs) ∧
    (∀ i < L, ∀ j < L, |HH.get i j - ((if i = j then n.norm else 0) + gram (samples bs) i j)|
      ≤ drift u ((samples bs).length + 1) * ((if i = j then |n.norm| else 0) + absGram (samples bs) i j)) ∧
    (∀ i < L, ∀ j < n.outputs, |HT.get i j - cross (samples bs) i j|
      ≤ drift u ((samples bs).length + 2) * absCross (samples bs) i j) :=
  feed_bounds (a := 0) (b := 1) hr hL h0 hnorm hbs hf
    (fun b _ hb he i j => entering_plain hr (hf b hb) (hw b hb) he i j) h hg

/-- C96 with weights: four more roundings per product (weight roots, weighted entries). -/
theorem C96_weighted (env : Env K) (u : K) (n n' : NNet K) (L : Nat) (hr : Rounding (env.cast n.prec) u)
    (hsq : ∀ v : K, 0 ≤ v → env.sqrt v * env.sqrt v = v)
    (hL : n.L = some L) (h0 : n.corr = none) (hnorm : env.cast n.prec n.norm = n.norm)
    (bs : List (HBatch K)) (hbs : bs ≠ []) (hf : ∀ b ∈ bs, Fit L n.outputs b)
    (h : n.FeedR env bs n') (HH HT : Mat K) (hg : n'.getCorrR env = some (HH, HT)) :
    (HH.nrows = L ∧ HH.cols = L ∧ HT.nrows = L ∧ HT.cols = n.outputs) ∧
    (∀ i < L, ∀ j < L, |HH.get i j - ((if i = j then n.norm else 0) + gram (samples bs) i j)|
      ≤ drift u ((samples bs).length + 5) * ((if i = j then |n.norm| else 0) + absGram (samples bs) i j)) ∧
    (∀ i < L, ∀ j < n.outputs, |HT.get i j - cross (samples bs) i j|
      ≤ drift u ((samples bs).length + 6) * absCross (samples bs) i j) :=
  feed_bounds (a := 4) (b := 5) hr hL h0 hnorm hbs hf
    (fun b _ hb he i j => entering_terms hr hsq (hf b hb) he i j) h hg

/-- C96, independence of the batches.  Two runs of the same network (with whichever solver) over the same samples, split into
batches in two ways, fed in two orders and summed in two orders: the results of `get_corr` agree up to twice the bound of
`C96_weighted`. -/
theorem C96_batches (env : Env K) (u : K) (n m n' m' : NNet K) (L : Nat) (hr : Rounding (env.cast n.prec) u)
    (hsq : ∀ v : K, 0 ≤ v → env.sqrt v * env.sqrt v = v)
    (hL : n.L = some L) (h0 : n.corr = none) (hnorm : env.cast n.prec n.norm = n.norm)
    (hm : m = { n with solver := m.solver })
    (bs bs' : List (HBatch K)) (hbs : bs ≠ []) (hbs' : bs' ≠ []) (hf : ∀ b ∈ bs, Fit L n.outputs b)
    (hf' : ∀ b ∈ bs', Fit L n.outputs b) (hperm : (samples bs).Perm (samples bs'))
    (h : n.FeedR env bs n') (h' : m.FeedR env bs' m')
    (HH HT GG GT : Mat K) (hg : n'.getCorrR env = some (HH, HT)) (hg' : m'.getCorrR env = some (GG, GT)) :
    (∀ i < L, ∀ j < L, |HH.get i j - GG.get i j|
      ≤ 2 * drift u ((samples bs).length + 5) * ((if i = j then |n.norm| else 0) + absGram (samples bs) i j)) ∧
    (∀ i < L, ∀ j < n.outputs, |HT.get i j - GT.get i j|
      ≤ 2 * drift u ((samples bs).length + 6) * absCross (samples bs) i j) := by
  obtain ⟨_, a1, a2⟩ := C96_weighted env u n n' L hr hsq hL h0 hnorm bs hbs hf h HH HT hg
  have hm1 : m.prec = n.prec ∧ m.L = n.L ∧ m.corr = n.corr ∧ m.norm = n.norm ∧ m.outputs = n.outputs := by
    rw [hm]; exact ⟨rfl, rfl, rfl, rfl, rfl⟩
  obtain ⟨m1, m2, m3, m4, m5⟩ := hm1
  obtain ⟨_, b1, b2⟩ := C96_weighted env u m m' L (by rw [m1]; exact hr) hsq (m2.trans hL) (m3.trans h0)
    (by rw [m1, m4]; exact hnorm) bs' hbs' (by rw [m5]; exact hf') h' GG GT hg'
  rw [m4] at b1
  rw [m5] at b2
  have g1 : ∀ i j, gram (samples bs') i j = gram (samples bs) i j := fun i j => ((hperm.map _).sum_eq).symm
  have g2 : ∀ i j, absGram (samples bs') i j = absGram (samples bs) i j := fun i j => ((hperm.map _).sum_eq).symm
  have g3 : ∀ i j, cross (samples bs') i j = cross (samples bs) i j := fun i j => ((hperm.map _).sum_eq).symm
  have g4 : ∀ i j, absCross (samples bs') i j = absCross (samples bs) i j := fun i j => ((hperm.map _).sum_eq).symm
  have hlen := hperm.length_eq.symm
  constructor
  · intro i hi j hj
    have x := a1 i hi j hj
    have y := b1 i hi j hj
    rw [g1, g2, hlen, abs_sub_comm] at y
    have := abs_sub_le (HH.get i j) ((if i = j then n.norm else 0) + gram (samples bs) i j) (GG.get i j)
    linarith
  · intro i hi j hj
    have x := a2 i hi j hj
    have y := b2 i hi j hj
    rw [g3, g4, hlen, abs_sub_comm] at y
    have := abs_sub_le (HT.get i j) (cross (samples bs) i j) (GT.get i j)
    linarith

/-- C96.  As long as `(1+u)^(N+5) < 2`, rounding cannot make a diagonal entry of `HH` vanish: it stays positive. -/
theorem C96_diagonal_positive (env : Env K) (u : K) (n n' : NNet K) (L : Nat) (hr : Rounding (env.cast n.prec) u)
    (hsq : ∀ v : K, 0 ≤ v → env.sqrt v * env.sqrt v = v)
    (hL : n.L = some L) (h0 : n.corr = none) (hnorm : env.cast n.prec n.norm = n.norm) (hpos : 0 < n.norm)
    (bs : List (HBatch K)) (hbs : bs ≠ []) (hf : ∀ b ∈ bs, Fit L n.outputs b)
    (hu : (1 + u) ^ ((samples bs).length + 5) < 2)
    (h : n.FeedR env bs n') (HH HT : Mat K) (hg : n'.getCorrR env = some (HH, HT)) (i : Nat) (hi : i < L) :
    0 < HH.get i i := by
  obtain ⟨_, a1, _⟩ := C96_weighted env u n n' L hr hsq hL h0 hnorm bs hbs hf h HH HT hg
  have x := a1 i hi i hi
  simp only [if_true] at x
  have hww := samples_weight_nonneg hf
  have e : absGram (samples bs) i i = gram (samples bs) i i := by
    unfold absGram gram
    congr 1
    apply List.map_congr_left
    intro s _
    rw [abs_of_nonneg (mul_self_nonneg _)]
  have hg0 : 0 ≤ gram (samples bs) i i := by
    apply List.sum_nonneg
    intro v hv
    obtain ⟨s, hs, rfl⟩ := List.mem_map.1 hv
    exact mul_nonneg (hww s hs) (mul_self_nonneg _)
  rw [e, abs_of_pos hpos] at x
  have hd : drift u ((samples bs).length + 5) < 1 := by unfold drift; linarith
  have := (abs_le.1 x).1
  nlinarith

theorem sums_exact {r : K → K} (hr : ∀ x, r x = x) {l : List (Term K)} {v : K} (h : Sums r l v) :
    v = (l.map Term.value).sum := by
  have hR : Rounding r (0 : K) := ⟨le_refl _, fun x => by simp [hr], fun x => by simp [hr]⟩
  have := h.bound hR
  simp only [drift, add_zero, one_pow, sub_self, zero_mul] at this
  exact sub_eq_zero.1 (abs_nonpos_iff.1 this)

theorem exists_sums_exact {r : K → K} (hr : ∀ x, r x = x) (a : K) (ts : List (Term K)) :
    Sums r (.val a :: ts) (((Term.val a :: ts).map Term.value).sum) := by
  obtain ⟨v, hv⟩ := exists_sums r a ts
  rw [← sums_exact hr hv]; exact hv

theorem products_sum (A B : Mat K) (i j : Nat) :
    ((products A B i j).map Term.value).sum = ((A.rows.zip B.rows).map fun p => p.1.getD i 0 * p.2.getD j 0).sum := by
  unfold products
  rw [List.map_map]; rfl

theorem mat_map_id {r : K → K} (hr : ∀ x, r x = x) (M : Mat K) : M.map r = M := by
  have : r = id := funext hr
  unfold Mat.map
  rw [this]; simp

/-- C96, relation to the exact model.  If rounding changes nothing, the accumulation modelled with rounding and arbitrary orders of
summation has exactly one result: that of `add_batch` in the exact model, which all other properties are about. -/
theorem C96_exact_model (env : Env K) (hx : env.Exact) (n n' m : NNet K) (X T H : Mat K) (wc : Option (List K))
    (hc : Consistent n) (hH : n.project env X = .ok H) (h : n.addBatch env X T wc = .ok n') :
    n.AddBatchR env H T wc m ↔ m = n' := by
  have hcast : ∀ M : Mat K, M.map (env.cast n.prec) = M := fun M => mat_map_id (hx n.prec) M
  have hw : weightedR env n.prec wc H (T.map (env.cast n.prec)) = weighted env n.prec wc H (T.map (env.cast n.prec)) := by
    unfold weightedR
    cases wc with
    | none => rfl
    | some w =>
      simp only
      cases hq : weighted env n.prec (some w) H (T.map (env.cast n.prec)) with
      | error e => rfl
      | ok q => obtain ⟨A, B⟩ := q; simp only [bind, Except.bind, pure, Except.pure, hcast]
  rw [addBatch_eq, hH] at h
  have h : n.accum env H (T.map (env.cast n.prec)) wc = .ok n' := h
  unfold NNet.accum at h
  obtain ⟨⟨H', T'⟩, hq, h⟩ := bind_ok h
  · have h : n.accum env H' T' none = .ok n' := h
    rw [accum_none] at h
    split at h
    · cases h
    rename_i hsh
    push Not at hsh
    split at h
    · cases h
    rename_i hcols
    push Not at hcols
    have hcorr : n.corr0 = n.corr.getD (Mat.diag (n.L.getD 0) n.norm, Mat.zeros (n.L.getD 0) n.outputs) := by
      unfold NNet.corr0
      cases n.corr <;> rfl
    obtain ⟨HH, HT, hs⟩ : ∃ HH HT, (HH, HT) = n.corr.getD (Mat.diag (n.L.getD 0) n.norm, Mat.zeros (n.L.getD 0) n.outputs) :=
      ⟨_, _, rfl⟩
    rw [hcorr, ← hs] at h hcols
    simp only [Except.ok.injEq] at h hcols
    -- shapes
    have hsz : HH.WF ∧ HT.WF ∧ HH.nrows = HH.cols ∧ HT.nrows = HH.nrows ∧ HT.cols = n.outputs := by
      cases hcn : n.corr with
      | none =>
        rw [hcn] at hs
        simp only [Option.getD_none, Prod.mk.injEq] at hs
        obtain ⟨rfl, rfl⟩ := hs
        refine ⟨Mat.diag_WF _ _, Mat.zeros_WF _ _, ?_, ?_, ?_⟩ <;> simp [Mat.diag, Mat.zeros, Mat.ofFn, Mat.nrows]
      | some c =>
        rw [hcn] at hs
        simp only [Option.getD_some] at hs
        subst hs
        obtain ⟨a, b, c1, c2, c3, c4⟩ := hc.corrs _ _ hcn
        have e1 : some HH.nrows = some HH.cols := c1.trans c2.symm
        have e2 : some HT.nrows = some HH.nrows := c3.trans c1.symm
        exact ⟨a, b, by simpa using e1, by simpa using e2, c4⟩
    obtain ⟨z1, z2, z3, z4, z5⟩ := hsz
    have hupd : (n.updHH HH H').WF ∧ (n.updHH HH H').nrows = HH.nrows ∧ (n.updHH HH H').cols = HH.cols ∧
        ∀ i < HH.nrows, ∀ j < HH.cols, (n.updates i j → (n.updHH HH H').get i j
          = HH.get i j + ((H'.rows.zip H'.rows).map fun p => p.1.getD i 0 * p.2.getD j 0).sum) ∧
          (¬ n.updates i j → (n.updHH HH H').get i j = HH.get i j) := by
      have full : (HH.add (H'.tmul H')).WF ∧ (HH.add (H'.tmul H')).nrows = HH.nrows ∧ (HH.add (H'.tmul H')).cols = HH.cols ∧
          ∀ i < HH.nrows, ∀ j < HH.cols, (True → (HH.add (H'.tmul H')).get i j
            = HH.get i j + ((H'.rows.zip H'.rows).map fun p => p.1.getD i 0 * p.2.getD j 0).sum) ∧
            (¬ True → (HH.add (H'.tmul H')).get i j = HH.get i j) := by
        refine ⟨Mat.add_WF _ _, by simp [Mat.add, Mat.nrows, Mat.ofFn], by simp [Mat.add, Mat.ofFn], fun i hi j hj =>
          ⟨fun _ => ?_, fun h => absurd trivial h⟩⟩
        rw [Mat.get_add hi hj, Mat.get_tmul (by omega) (by omega)]
      have upper : (syrkUpper HH H').WF ∧ (syrkUpper HH H').nrows = HH.nrows ∧ (syrkUpper HH H').cols = HH.cols ∧
          ∀ i < HH.nrows, ∀ j < HH.cols, (i ≤ j → (syrkUpper HH H').get i j
            = HH.get i j + ((H'.rows.zip H'.rows).map fun p => p.1.getD i 0 * p.2.getD j 0).sum) ∧
            (¬ i ≤ j → (syrkUpper HH H').get i j = HH.get i j) := by
        refine ⟨Mat.ofFn_WF _ _ _, by simp [syrkUpper, Mat.nrows, Mat.ofFn], by simp [syrkUpper, Mat.ofFn], fun i hi j hj => ?_⟩
        unfold syrkUpper
        simp only
        rw [Mat.get_ofFn_lt hi hj, Mat.get_tmul (by omega) (by omega)]
        exact ⟨fun h => by rw [if_pos h], fun h => by rw [if_neg h]⟩
      cases hsv : n.solver <;> cases hpv : n.prec <;> unfold NNet.updHH NNet.updates <;> rw [hsv, hpv] <;>
        first | exact full | exact upper
    obtain ⟨v1, v2, v3, v4⟩ := hupd
    have hHT : (HT.add (H'.tmul T')).WF ∧ (HT.add (H'.tmul T')).nrows = HT.nrows ∧ (HT.add (H'.tmul T')).cols = HT.cols ∧
        ∀ i < HT.nrows, ∀ j < HT.cols, (HT.add (H'.tmul T')).get i j
          = HT.get i j + ((H'.rows.zip T'.rows).map fun p => p.1.getD i 0 * p.2.getD j 0).sum := by
      refine ⟨Mat.add_WF _ _, by simp [Mat.add, Mat.nrows, Mat.ofFn], by simp [Mat.add, Mat.ofFn], fun i hi j hj => ?_⟩
      rw [Mat.get_add hi hj, Mat.get_tmul (by omega) (by omega)]
    obtain ⟨u1, u2, u3, u4⟩ := hHT
    constructor
    · rintro ⟨A, B, HH1, HT1, HH2, HT2, e1, e2, e3, e4, e5, rfl, ⟨w1, w2, w3⟩, ⟨w4, w5, w6⟩, a1, a2⟩
      rw [hw, hq] at e1
      simp only [Except.ok.injEq, Prod.mk.injEq] at e1
      obtain ⟨rfl, rfl⟩ := e1
      rw [← hs] at e4
      simp only [Prod.mk.injEq] at e4
      obtain ⟨rfl, rfl⟩ := e4
      rw [← h]
      congr 2
      simp only [Prod.mk.injEq]
      constructor
      · apply Mat.ext_get w1 v1 (by omega) (by omega)
        intro i j hi hj
        have := a1 i (by omega) j (by omega)
        by_cases hu : n.updates i j
        · rw [(v4 i (by omega) j (by omega)).1 hu]
          have := sums_exact (hx n.prec) (this.1 hu)
          rw [this, List.map_cons, List.sum_cons, products_sum]; rfl
        · rw [(v4 i (by omega) j (by omega)).2 hu, this.2 hu]
      · apply Mat.ext_get w4 u1 (by omega) (by omega)
        intro i j hi hj
        rw [u4 i (by omega) j (by omega)]
        have := sums_exact (hx n.prec) (a2 i (by omega) j (by omega))
        rw [this, List.map_cons, List.sum_cons, products_sum]; rfl
    · rintro rfl
      refine ⟨H', T', HH, HT, n.updHH HH H', HT.add (H'.tmul T'), by rw [hw, hq], hsh.1, hsh.2, hs, hcols, h.symm, ⟨v1, v2, v3⟩,
        ⟨u1, u2, u3⟩, fun i hi j hj => ⟨fun hu => ?_, fun hu => ?_⟩, fun i hi j hj => ?_⟩
      · have := exists_sums_exact (hx n.prec) (HH.get i j) (products H' H' i j)
        rw [List.map_cons, List.sum_cons, products_sum] at this
        rw [(v4 i hi j hj).1 hu]; exact this
      · exact (v4 i hi j hj).2 hu
      · have := exists_sums_exact (hx n.prec) (HT.get i j) (products H' T' i j)
        rw [List.map_cons, List.sum_cons, products_sum] at this
        rw [u4 i hi j hj]; exact this

/-! ### The hypotheses are met -/

/-- The reals with binary floating-point rounding: 24 or 53 significant digits. -/
noncomputable def floatEnv : Env ℝ :=
  { realEnv with cast := fun p => floatRound (match p with | .single => 23 | .double => 52) }

/-- Two batches for two neurons and one output, one batch with weights. -/
noncomputable def floatBatches : List (HBatch ℝ) :=
  [⟨⟨2, [[1, 3], [2, 1/3]]⟩, ⟨1, [[5], [1/7]]⟩, none⟩, ⟨⟨2, [[1/9, 3]]⟩, ⟨1, [[2]]⟩, some [1/5]⟩]

/-- Two linear neurons, norm 1, single precision. -/
noncomputable def floatNet (s : Solver) : NNet ℝ :=
  { solver := s, prec := .single, inputs := 2, outputs := 1, norm := 1,
    neurons := [⟨2, .name "lin", [[1, 0], [0, 1]], [0, 0]⟩], L := some 2, B := none, corr := none }

theorem floatRound_one (t : Nat) : floatRound t (1 : ℝ) = 1 := by
  simp [floatRound, ulp, Int.log_one_right]
  rw [show ((2 : ℝ) ^ t) = (((2 ^ t : ℕ) : ℤ) : ℝ) by push_cast; rfl, round_intCast]
  have : ((2 ^ t : ℕ) : ℝ) ≠ 0 := by positivity
  push_cast
  field_simp

theorem floatBatches_fit (s : Solver) : ∀ b ∈ floatBatches, Fit 2 (floatNet s).outputs b := by
  intro b hb
  simp only [floatBatches, List.mem_cons, List.not_mem_nil, or_false] at hb
  rcases hb with rfl | rfl
  · refine ⟨?_, ?_, rfl, rfl, rfl, ?_⟩ <;> simp [Mat.WF]
  · refine ⟨?_, ?_, rfl, rfl, rfl, ?_⟩
    · simp [Mat.WF]
    · simp [Mat.WF]
    · intro w hw
      injection hw with hw
      subst hw
      refine ⟨rfl, ?_⟩
      intro x hx
      simp at hx
      subst hx
      norm_num

/-- Single precision, weights and every solver: runs over the two batches exist and meet the hypotheses of `C96_weighted` and of
`C96_diagonal_positive`. -/
example (s : Solver) : ∃ n', (floatNet s).FeedR floatEnv floatBatches n' ∧
    Rounding (floatEnv.cast (floatNet s).prec) (1 / 2 ^ 24) ∧ (∀ v : ℝ, 0 ≤ v → floatEnv.sqrt v * floatEnv.sqrt v = v) ∧
    floatEnv.cast (floatNet s).prec (floatNet s).norm = (floatNet s).norm ∧
    (∀ b ∈ floatBatches, Fit 2 (floatNet s).outputs b) ∧ (samples floatBatches).length = 3 ∧
    (1 + 1 / 2 ^ 24 : ℝ) ^ ((samples floatBatches).length + 5) < 2 := by
  have hf := floatBatches_fit s
  obtain ⟨n', hn⟩ := exists_feedR floatEnv 2 floatBatches (floatNet s) rfl (by intro c hc; cases hc) hf
  refine ⟨n', hn, floatRound_rounding 23, fun v hv => Real.mul_self_sqrt hv, floatRound_one 23, hf, rfl, ?_⟩
  rw [show (samples floatBatches).length = 3 from rfl]
  norm_num

/-! ### Exact equality is false -/

/-- Three significant binary digits. -/
def shortEnv : Env ℚ := { QEnv.env with cast := fun _ => floatRound 2 }

/-- One linear neuron, one output, norm 0. -/
def shortNet : NNet ℚ :=
  { solver := .basic, prec := .double, inputs := 1, outputs := 1, norm := 0,
    neurons := [⟨1, .name "lin", [[1]], [0]⟩], L := some 1, B := none, corr := none }

/-- C96, refuted part.  The accumulated matrices are not equal bit for bit for different batches: the same three samples in the
same order, in one batch or in two batches, with sums formed in an admissible order, give `HT = 16` and `HT = 20`. -/
theorem C96_bitwise_refuted : ∃ (u : ℚ) (bs bs' : List (HBatch ℚ)) (m m' : NNet ℚ) (HH HT HH' HT' : Mat ℚ),
    Rounding (shortEnv.cast shortNet.prec) u ∧ (∀ b ∈ bs, Fit 1 1 b) ∧ (∀ b ∈ bs', Fit 1 1 b) ∧
    samples bs = samples bs' ∧ shortNet.FeedR shortEnv bs m ∧ shortNet.FeedR shortEnv bs' m' ∧
    m.getCorrR shortEnv = some (HH, HT) ∧ m'.getCorrR shortEnv = some (HH', HT') ∧ HH = HH' ∧ HT.get 0 0 ≠ HT'.get 0 0 := by
  have c16 : (Mat.mk 1 [[(16 : ℚ)]]).map (shortEnv.cast shortNet.prec) = ⟨1, [[16]]⟩ := by decide +kernel
  have c11 : (Mat.mk 1 [[(1 : ℚ)], [1]]).map (shortEnv.cast shortNet.prec) = ⟨1, [[1], [1]]⟩ := by decide +kernel
  have cAll : (Mat.mk 1 [[(16 : ℚ)], [1], [1]]).map (shortEnv.cast shortNet.prec) = ⟨1, [[16], [1], [1]]⟩ := by decide +kernel
  have fit1 : ∀ b ∈ [(⟨⟨1, [[1], [1], [1]]⟩, ⟨1, [[16], [1], [1]]⟩, none⟩ : HBatch ℚ)], Fit 1 1 b := by
    intro b hb; simp at hb; subst hb; refine ⟨?_, ?_, rfl, rfl, rfl, ?_⟩ <;> simp [Mat.WF]
  have fit2 : ∀ b ∈ [(⟨⟨1, [[1]]⟩, ⟨1, [[16]]⟩, none⟩ : HBatch ℚ), ⟨⟨1, [[1], [1]]⟩, ⟨1, [[1], [1]]⟩, none⟩], Fit 1 1 b := by
    intro b hb; simp at hb
    rcases hb with rfl | rfl <;> refine ⟨?_, ?_, rfl, rfl, rfl, ?_⟩ <;> simp [Mat.WF]
  -- rounded sums used below
  have r01 : floatRound 2 ((0 : ℚ) + 1 * 1) = 1 := by decide +kernel
  have r11 : floatRound 2 ((1 : ℚ) + 1 * 1) = 2 := by decide +kernel
  have r21 : floatRound 2 ((2 : ℚ) + 1 * 1) = 3 := by decide +kernel
  have p11 : floatRound 2 ((1 : ℚ) * 1) = 1 := by decide +kernel
  have r016 : floatRound 2 ((0 : ℚ) + 1 * 16) = 16 := by decide +kernel
  have r161 : floatRound 2 ((16 : ℚ) + 1 * 1) = 16 := by decide +kernel
  have r162 : floatRound 2 ((16 : ℚ) + 2) = 20 := by decide +kernel
  have s1 : Sums (floatRound 2) [.val (0 : ℚ), .prod 1 1] 1 := by
    have := Sums.fma (r := floatRound 2) (1 : ℚ) 1 (.val 0) (List.Perm.swap _ _ _)
    rwa [r01] at this
  have sH : Sums (floatRound 2) [.val (0 : ℚ), .prod 1 1, .prod 1 1, .prod 1 1] 3 := by
    have a := Sums.fma (r := floatRound 2) (l := [.val (0 : ℚ), .prod 1 1, .prod 1 1]) (1 : ℚ) 1 s1 (List.Perm.swap _ _ _)
    rw [r11] at a
    have b := Sums.fma (r := floatRound 2) (l := [.val (0 : ℚ), .prod 1 1, .prod 1 1, .prod 1 1]) (1 : ℚ) 1 a (List.Perm.swap _ _ _)
    rwa [r21] at b
  have sH2 : Sums (floatRound 2) [.val (1 : ℚ), .prod 1 1, .prod 1 1] 3 := by
    have a := Sums.fma (r := floatRound 2) (l := [.val (1 : ℚ), .prod 1 1]) (1 : ℚ) 1 (.val 1) (List.Perm.swap _ _ _)
    rw [r11] at a
    have b := Sums.fma (r := floatRound 2) (l := [.val (1 : ℚ), .prod 1 1, .prod 1 1]) (1 : ℚ) 1 a (List.Perm.swap _ _ _)
    rwa [r21] at b
  have sT1 : Sums (floatRound 2) [.val (0 : ℚ), .prod 1 16] 16 := by
    have := Sums.fma (r := floatRound 2) (1 : ℚ) 16 (.val 0) (List.Perm.swap _ _ _)
    rwa [r016] at this
  have sT : Sums (floatRound 2) [.val (0 : ℚ), .prod 1 16, .prod 1 1, .prod 1 1] 16 := by
    have a := Sums.fma (r := floatRound 2) (l := [.val (0 : ℚ), .prod 1 16, .prod 1 1]) (1 : ℚ) 1 sT1
      (List.perm_append_comm (l₁ := [Term.val (0 : ℚ), Term.prod 1 16]) (l₂ := [Term.prod (1 : ℚ) 1]))
    rw [r161] at a
    have b := Sums.fma (r := floatRound 2) (l := [.val (0 : ℚ), .prod 1 16, .prod 1 1, .prod 1 1]) (1 : ℚ) 1 a
      (List.perm_append_comm (l₁ := [Term.val (0 : ℚ), Term.prod 1 16, Term.prod 1 1]) (l₂ := [Term.prod (1 : ℚ) 1]))
    rwa [r161] at b
  have sT2 : Sums (floatRound 2) [.val (16 : ℚ), .prod 1 1, .prod 1 1] 20 := by
    have p := Sums.prod (r := floatRound 2) (1 : ℚ) 1
    rw [p11] at p
    have a := Sums.fma (r := floatRound 2) (l := [.prod (1 : ℚ) 1, .prod 1 1]) (1 : ℚ) 1 p (List.Perm.refl _)
    rw [r11] at a
    have b := Sums.add (r := floatRound 2) (l := [.val (16 : ℚ), .prod 1 1, .prod 1 1]) (.val 16) a (List.Perm.refl _)
    rwa [r162] at b
  refine ⟨1 / 2 ^ 3, [⟨⟨1, [[1], [1], [1]]⟩, ⟨1, [[16], [1], [1]]⟩, none⟩], [⟨⟨1, [[1]]⟩, ⟨1, [[16]]⟩, none⟩, ⟨⟨1, [[1], [1]]⟩, ⟨1, [[1], [1]]⟩, none⟩],
    { shortNet with corr := some (⟨1, [[3]]⟩, ⟨1, [[16]]⟩) }, { shortNet with corr := some (⟨1, [[3]]⟩, ⟨1, [[20]]⟩) },
    ⟨1, [[3]]⟩, ⟨1, [[16]]⟩, ⟨1, [[3]]⟩, ⟨1, [[20]]⟩, floatRound_rounding 2, fit1, fit2, rfl,
    .cons ?_ (.nil _), .cons (n' := { shortNet with corr := some (⟨1, [[1]]⟩, ⟨1, [[16]]⟩) }) ?_ (.cons ?_ (.nil _)), rfl, rfl, rfl,
    by decide⟩
  · refine ⟨⟨1, [[1], [1], [1]]⟩, ⟨1, [[16], [1], [1]]⟩, ⟨1, [[0]]⟩, ⟨1, [[0]]⟩, ⟨1, [[3]]⟩, ⟨1, [[16]]⟩, ?_, rfl, rfl, rfl, rfl, rfl,
      ⟨by simp [Mat.WF], rfl, rfl⟩, ⟨by simp [Mat.WF], rfl, rfl⟩, ?_, ?_⟩
    · rw [cAll]; rfl
    · intro i hi j hj
      obtain rfl : i = 0 := Nat.lt_one_iff.1 hi
      obtain rfl : j = 0 := Nat.lt_one_iff.1 hj
      exact ⟨fun _ => sH, fun h => absurd trivial h⟩
    · intro i hi j hj
      obtain rfl : i = 0 := Nat.lt_one_iff.1 hi
      obtain rfl : j = 0 := Nat.lt_one_iff.1 hj
      exact sT
  · refine ⟨⟨1, [[1]]⟩, ⟨1, [[16]]⟩, ⟨1, [[0]]⟩, ⟨1, [[0]]⟩, ⟨1, [[1]]⟩, ⟨1, [[16]]⟩, ?_, rfl, rfl, rfl, rfl, rfl,
      ⟨by simp [Mat.WF], rfl, rfl⟩, ⟨by simp [Mat.WF], rfl, rfl⟩, ?_, ?_⟩
    · rw [c16]; rfl
    · intro i hi j hj
      obtain rfl : i = 0 := Nat.lt_one_iff.1 hi
      obtain rfl : j = 0 := Nat.lt_one_iff.1 hj
      exact ⟨fun _ => s1, fun h => absurd trivial h⟩
    · intro i hi j hj
      obtain rfl : i = 0 := Nat.lt_one_iff.1 hi
      obtain rfl : j = 0 := Nat.lt_one_iff.1 hj
      exact sT1
  · refine ⟨⟨1, [[1], [1]]⟩, ⟨1, [[1], [1]]⟩, ⟨1, [[1]]⟩, ⟨1, [[16]]⟩, ⟨1, [[3]]⟩, ⟨1, [[20]]⟩, ?_, rfl, rfl, rfl, rfl, rfl,
      ⟨by simp [Mat.WF], rfl, rfl⟩, ⟨by simp [Mat.WF], rfl, rfl⟩, ?_, ?_⟩
    · rw [show ({ shortNet with corr := some (⟨1, [[1]]⟩, ⟨1, [[16]]⟩) } : NNet ℚ).prec = shortNet.prec from rfl, c11]; rfl
    · intro i hi j hj
      obtain rfl : i = 0 := Nat.lt_one_iff.1 hi
      obtain rfl : j = 0 := Nat.lt_one_iff.1 hj
      exact ⟨fun _ => sH2, fun h => absurd trivial h⟩
    · intro i hi j hj
      obtain rfl : i = 0 := Nat.lt_one_iff.1 hi
      obtain rfl : j = 0 := Nat.lt_one_iff.1 hj
      exact sT2

end Hpelm.Props
