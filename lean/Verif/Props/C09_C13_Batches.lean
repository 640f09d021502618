import Verif.Lemmas.Core
import Verif.Lemmas.QEnv
import Verif.Model.Ops

/-!
# C09–C13 — feeding data: batches, batch size, parts, order, forgetting
-/

namespace Hpelm.Props
open Hpelm Spec
variable {K : Type} [Field K] [LinearOrder K]
set_option linter.unusedSectionVars false

/-! ## C09 batches -/

/-- C09.  `add_data` on N ≥ 1 samples makes a sequence of `add_batch` calls, each on some samples paired with their targets,
such that the batches put together are exactly the data in order, and every batch has between 1 and `batch` samples. -/
theorem C09_batches (env : Env K) (e : ELM K) (X T : Mat K) (hb : 0 < e.batch) (hN : X.nrows = T.nrows) (h0 : 0 < X.nrows) :
    ∃ bs : List (Mat K × Mat K),
      e.addData env X T = bs.foldlM (init := e.autoWc env (colSums T)) (fun e b => do
          let w ← batchWeights e.classification e.wc b.2
          let n ← e.nnet.addBatch env b.1 b.2 w
          pure { e with nnet := n }) ∧
      bs.flatMap (·.1.rows) = X.rows ∧ bs.flatMap (·.2.rows) = T.rows ∧
      (∀ b ∈ bs, b.1.cols = X.cols ∧ b.2.cols = T.cols ∧ b.1.nrows = b.2.nrows ∧ 0 < b.1.nrows ∧ (b.1.nrows : Int) ≤ e.batch) ∧
      (bs.length : Int) * e.batch < X.nrows + e.batch := by
  have hk := ceilDiv_pos hb (by omega : (0 : Int) < (X.nrows : Int))
  have hkn : 0 < (ceilDiv (X.nrows : Int) e.batch).toNat := by omega
  set ss := arraySplitSizes X.nrows (ceilDiv (X.nrows : Int) e.batch).toNat with hss
  have hsum : ss.sum = X.nrows := arraySplitSizes_sum _ _ hkn
  have hsX : ss.sum = X.rows.length := hsum
  have hsT : ss.sum = T.rows.length := by rw [hsum, hN]; rfl
  have hlX := splitSizes_lengths ss X.rows hsX
  have hlT := splitSizes_lengths ss T.rows hsT
  have hlen : (splitSizes ss X.rows).length = (splitSizes ss T.rows).length := by
    have a := congrArg List.length hlX
    have b := congrArg List.length hlT
    simp only [List.length_map] at a b
    omega
  have hfeed : ∀ (l : List (List (List K) × List (List K))) (e : ELM K),
      e.feed env X.cols T.cols l = (l.map fun p => ((⟨X.cols, p.1⟩ : Mat K), (⟨T.cols, p.2⟩ : Mat K))).foldlM (init := e) (fun e b => do
          let w ← batchWeights e.classification e.wc b.2
          let n ← e.nnet.addBatch env b.1 b.2 w
          pure { e with nnet := n }) := by
    intro l
    induction l with
    | nil => intro e; rfl
    | cons p l ih =>
      intro e
      obtain ⟨Xb, Tb⟩ := p
      rw [List.map_cons, List.foldlM_cons]
      unfold ELM.feed
      simp only
      cases batchWeights e.classification e.wc ⟨T.cols, Tb⟩ with
      | error x => rfl
      | ok w =>
        simp only [bind, Except.bind]
        cases e.nnet.addBatch env ⟨X.cols, Xb⟩ ⟨T.cols, Tb⟩ w with
        | error x => rfl
        | ok n => exact ih _
  refine ⟨((splitSizes ss X.rows).zip (splitSizes ss T.rows)).map fun p => (⟨X.cols, p.1⟩, ⟨T.cols, p.2⟩), ?_, ?_, ?_, ?_, ?_⟩
  · rw [← hfeed]
    unfold ELM.addData
    rw [if_neg (by omega)]
    have h1 := arraySplit_ok X.rows _ hk
    have h2 := arraySplit_ok T.rows _ hk
    have e1 : X.rows.length = X.nrows := rfl
    have e2 : T.rows.length = X.nrows := hN.symm
    rw [e1] at h1
    rw [e2] at h2
    simp only [h1, h2]
    rfl
  · rw [List.flatMap_map]
    have := (zip_flatten_fst _ _ hlen).1
    rw [splitSizes_flatten ss X.rows hsX] at this
    exact this
  · rw [List.flatMap_map]
    have := (zip_flatten_fst _ _ hlen).2
    rw [splitSizes_flatten ss T.rows hsT] at this
    exact this
  · intro b hb'
    rw [List.mem_map] at hb'
    obtain ⟨⟨x, t⟩, hp, rfl⟩ := hb'
    rw [List.mem_iff_getElem] at hp
    obtain ⟨i, hi, hp⟩ := hp
    rw [List.getElem_zip] at hp
    injection hp with hx ht
    rw [List.length_zip] at hi
    have hix : i < (splitSizes ss X.rows).length := by omega
    have hit : i < (splitSizes ss T.rows).length := by omega
    have hxl : x.length ∈ ss := by
      rw [← hlX, ← hx]
      exact List.mem_map_of_mem (List.getElem_mem hix)
    have hxt : x.length = t.length := by
      have : ((splitSizes ss X.rows).map List.length)[i]'(by simpa using hix) =
          ((splitSizes ss T.rows).map List.length)[i]'(by simpa using hit) := by
        simp only [hlX, hlT]
      simp only [List.getElem_map] at this
      rw [← hx, ← ht]
      exact this
    obtain ⟨p1, p2⟩ := section_sizes hb h0 hxl
    exact ⟨rfl, rfl, hxt, p1, p2⟩
  · have hl : ((((splitSizes ss X.rows).zip (splitSizes ss T.rows)).map fun p =>
        ((⟨X.cols, p.1⟩ : Mat K), (⟨T.cols, p.2⟩ : Mat K))).length : Int) = ceilDiv (X.nrows : Int) e.batch := by
      rw [List.length_map, List.length_zip, ← hlen, min_self]
      have a := congrArg List.length hlX
      rw [List.length_map] at a
      rw [a]
      have : ss.length = (ceilDiv (X.nrows : Int) e.batch).toNat := by
        rw [hss]
        unfold arraySplitSizes
        have := Nat.mod_lt X.nrows hkn
        simp only [List.length_append, List.length_replicate]
        omega
      omega
    rw [hl]
    have := (ceilDiv_spec (X.nrows : Int) e.batch hb).1
    nlinarith

/-- C09, no data: there is nothing to split and the call is refused. -/
theorem C09_empty_refused (env : Env K) (e : ELM K) (X T : Mat K) (hb : 0 < e.batch) (h0 : X.nrows = 0) :
    e.addData env X T = .error .valueError := addData_empty hb h0

/-- A small model used in the examples: two linear neurons on two inputs, `outputs` outputs. -/
def exModel (outputs : Nat) (batch : Int) (cls : Option String) (wc : Option (List (Option ℚ))) : ELM ℚ :=
  { nnet := { solver := .python, prec := .double, inputs := 2, outputs := outputs, norm := 1,
              neurons := [⟨2, .name "lin", [[1, 0], [0, 1]], [0, 0]⟩], L := some 2, B := none, corr := none }
    batch := batch, prec := .double, accelerator := none, classification := cls, wc := wc, rankingOP := false, kmaxOp := none }

example : ((exModel 1 2 none none).addData QEnv.env ⟨2, [[1, 0], [0, 1], [2, 3]]⟩ ⟨1, [[1], [2], [3]]⟩).map (·.nnet.corr)
    = .ok (some (⟨2, [[6, 6], [0, 11]]⟩, ⟨1, [[7], [11]]⟩)) := by decide +kernel

/-! ## C10 batch size -/

/-- `batch` is the only thing argument parsing takes from that keyword. -/
theorem parseArgs_batch (e : ELM K) (args : List String) (kw : Kwargs K) (b : Int) :
    e.parseArgs args { kw with batch := some b } =
      match e.parseArgs args { kw with batch := none } with
      | (e1, .error x) => (e1, .error x)
      | (e1, .ok ()) => ({ e1 with batch := b }, .ok ()) := by
  have hl : ∀ (as : List String) (x y : Option Int) (e : ELM K),
      parseLoop { kw with batch := x } as e = parseLoop { kw with batch := y } as e := by
    intro as x y
    induction as with
    | nil => intro e; rfl
    | cons a as ih =>
      intro e
      unfold parseLoop
      have : parseOne { kw with batch := x } e a = parseOne { kw with batch := y } e a := rfl
      rw [this]
      split
      · rfl
      · exact ih _
  unfold ELM.parseArgs
  split
  · rfl
  simp only
  split
  · rfl
  split
  · rfl
  rw [hl _ (some b) none]
  split <;> rfl

/-- C10.  Whatever the model, the data, the flags (plain training or structure selection) and the other keywords: the two
calls of `train` with batch sizes `b1` and `b2` return the same value (or raise the same exception) and leave the same
object, except for the stored batch size itself.  For weighted classification the targets must be one-hot. -/
theorem C10_batch_size [IsStrictOrderedRing K] (env : Env K) (hx : env.Exact) (fs : Files K) (rnd : Rnd) (e : ELM K)
    (X T : DataArg K) (args : List String) (kw : Kwargs K) (b1 b2 : Int) (h1 : 0 < b1) (h2 : 0 < b2)
    (hT : Given args "WC" → ∀ X' T', checkBoth fs e.nnet X T = .ok (X', T') → OneHot T') :
    (e.train env fs rnd X T args { kw with batch := some b1 }).1 = (e.train env fs rnd X T args { kw with batch := some b2 }).1 ∧
    { (e.train env fs rnd X T args { kw with batch := some b1 }).2 with batch := 0 } =
      { (e.train env fs rnd X T args { kw with batch := some b2 }).2 with batch := 0 } := by
  unfold ELM.train
  cases hc : checkBoth fs e.nnet X T with
  | error x => exact ⟨rfl, rfl⟩
  | ok p =>
    obtain ⟨X', T'⟩ := p
    simp only
    rw [parseArgs_batch e args kw b1, parseArgs_batch e args kw b2]
    have hT' := fun h => hT h X' T' hc
    obtain ⟨_, hcols, hN⟩ := checkBoth_ok hc
    rcases hp : e.parseArgs args { kw with batch := none } with ⟨e1, (x | u)⟩
    · exact ⟨rfl, rfl⟩
    · simp only
      obtain ⟨w1, w2⟩ := parseArgs_wc hp
      have hhot : e1.classification = some "wc" → OneHot T' := fun h => hT' (w1 h)
      have hok : AutoOk env { e1 with batch := b1 } T' := by
        refine ⟨fun h => oneHot_oneEach (hhot h), ?_⟩
        have := autoWc_WOk (e := { e1 with batch := b1 }) (T := T') hx hhot (by rw [hcols]; exact w2)
        exact this
      have hadd := addData_core (env := env) (e := { e1 with batch := b1 }) (e' := { e1 with batch := b2 }) (X := X') (T := T')
        rfl h1 h2 hN hok
      have hbody := trainBody_core (env := env) (fs := fs) (rnd := rnd) (args := args) (kw := kw) (e := { e1 with batch := b1 })
        (e' := { e1 with batch := b2 }) (X := X') (T := T') rfl hadd
      have ek : ∀ (b : Int) (e2 : ELM K), e2.trainBody env fs rnd X' T' args { kw with batch := some b } =
        e2.trainBody env fs rnd X' T' args kw := fun _ _ => rfl
      rw [ek, ek]
      cases hb1 : ({ e1 with batch := b1 } : ELM K).trainBody env fs rnd X' T' args kw with
      | error x =>
        cases hb2 : ({ e1 with batch := b2 } : ELM K).trainBody env fs rnd X' T' args kw with
        | error y =>
          rw [hb1, hb2] at hbody
          injection hbody with hbody
          subst hbody
          exact ⟨rfl, rfl⟩
        | ok y => rw [hb1, hb2] at hbody; cases hbody
      | ok x =>
        cases hb2 : ({ e1 with batch := b2 } : ELM K).trainBody env fs rnd X' T' args kw with
        | error y => rw [hb1, hb2] at hbody; cases hbody
        | ok y =>
          have f1 := (trainBody_frame hb1).accelerator
          have f2 := (trainBody_frame hb2).accelerator
          rw [hb1, hb2] at hbody
          injection hbody with hbody
          injection hbody with g1 g2
          obtain ⟨x1, x2⟩ := x
          obtain ⟨y1, y2⟩ := y
          simp only at g1 g2 f1 f2 ⊢
          refine ⟨by rw [g1], ?_⟩
          have hacc : x2.accelerator = y2.accelerator := by rw [f1, f2]
          unfold ELM.shell at g2
          injection g2 with a1 a2 a3 a4 a5 a6 a7 a8
          simp only [a1, a3, a5, a6, a7, a8, hacc]

/-- Weighted classification on one-hot targets, batch sizes 1 and 3: same result. -/
example : (((exModel 2 5 none none).train QEnv.env (fun _ => none) ⟨fun _ => []⟩ (.mat ⟨2, [[1, 0], [0, 1], [2, 3]]⟩)
      (.mat ⟨2, [[1, 0], [0, 1], [1, 0]]⟩) ["wc"] { batch := some 1, w := some [4, 9] }).2.nnet.B) =
    (((exModel 2 5 none none).train QEnv.env (fun _ => none) ⟨fun _ => []⟩ (.mat ⟨2, [[1, 0], [0, 1], [2, 3]]⟩)
      (.mat ⟨2, [[1, 0], [0, 1], [1, 0]]⟩) ["wc"] { batch := some 3, w := some [4, 9] }).2.nnet.B) ∧
    (((exModel 2 5 none none).train QEnv.env (fun _ => none) ⟨fun _ => []⟩ (.mat ⟨2, [[1, 0], [0, 1], [2, 3]]⟩)
      (.mat ⟨2, [[1, 0], [0, 1], [1, 0]]⟩) ["wc"] { batch := some 3, w := some [4, 9] }).2.nnet.B) =
      some ⟨2, [[44/65, -36/65], [-6/65, 63/130]]⟩ := by decide +kernel

/-! ## C11 parts -/

/-- C11 as stated is false: with automatic class weights the first part fixes the weights for good, so feeding the data in
two parts differs from feeding it at once (even in exact arithmetic, one-hot targets, all classes in both parts). -/
theorem C11_parts_refuted :
    ¬ ∀ (e : ELM ℚ) (X1 T1 X2 T2 : Mat ℚ), 0 < e.batch → OneHot T1 → OneHot T2 → X1.nrows = T1.nrows → X2.nrows = T2.nrows →
        0 < X1.nrows → 0 < X2.nrows → X1.cols = X2.cols → T1.cols = T2.cols →
        ((e.addData QEnv.env X1 T1).bind fun e => e.addData QEnv.env X2 T2) = e.addData QEnv.env (vstack X1 X2) (vstack T1 T2) := by
  intro h
  have hot : ∀ rows : List (List ℚ), (∀ r ∈ rows, r = [1, 0] ∨ r = [0, 1]) → OneHot (⟨2, rows⟩ : Mat ℚ) := by
    intro rows hr r hm
    rcases hr r hm with rfl | rfl
    · refine ⟨0, Nat.zero_lt_two, rfl, ?_⟩
      intro j hj
      replace hj : j < 2 := hj
      have : j = 0 ∨ j = 1 := by omega
      rcases this with rfl | rfl <;> rfl
    · refine ⟨1, Nat.one_lt_two, rfl, ?_⟩
      intro j hj
      replace hj : j < 2 := hj
      have : j = 0 ∨ j = 1 := by omega
      rcases this with rfl | rfl <;> rfl
  have := h (exModel 2 10 (some "wc") none) ⟨2, [[1, 0], [0, 1]]⟩ ⟨2, [[1, 0], [0, 1]]⟩ ⟨2, [[1, 1], [1, 1], [1, 1]]⟩
    ⟨2, [[0, 1], [1, 0], [1, 0]]⟩ (by decide) (hot _ (by simp)) (hot _ (by simp)) rfl rfl (by decide) (by decide) rfl rfl
  exact absurd this (by decide +kernel)

/-- C11 for everything but automatic weights: regression, plain and multi-label classification, and weighted
classification with given weights on one-hot targets.  Feeding two parts one after the other leaves the same object (or
raises the same exception) as feeding the stacked data.  Missing from the full property: automatic weights, where it is
false (`C11_parts_refuted`). -/
theorem C11_parts_partial (env : Env K) (e : ELM K) (X1 T1 X2 T2 : Mat K) (hb : 0 < e.batch)
    (h1 : X1.nrows = T1.nrows) (h2 : X2.nrows = T2.nrows) (p1 : 0 < X1.nrows) (p2 : 0 < X2.nrows)
    (hX : X1.cols = X2.cols) (hTc : T1.cols = T2.cols)
    (hw : e.classification = some "wc" →
      (∃ ws : List K, e.wc = some (ws.map some) ∧ ws.length = T1.cols) ∧ OneHot T1 ∧ OneHot T2) :
    ((e.addData env X1 T1).bind fun e => e.addData env X2 T2) = e.addData env (vstack X1 X2) (vstack T1 T2) := by
  obtain ⟨xc, x1⟩ := X1
  obtain ⟨xc', x2⟩ := X2
  obtain ⟨tc, t1⟩ := T1
  obtain ⟨tc', t2⟩ := T2
  simp only at hX hTc
  subst hX hTc
  simp only [Mat.nrows_mk] at h1 h2 p1 p2
  unfold vstack
  simp only
  -- the weights never change
  have hauto : ∀ (e' : ELM K), e'.classification = e.classification → e'.wc = e.wc → ∀ ns, e'.autoWc env ns = e' := by
    intro e' c1 c2 ns
    unfold ELM.autoWc
    rw [if_neg]
    rintro ⟨a, b⟩
    rw [c1] at a
    obtain ⟨⟨ws, hws, _⟩, _⟩ := hw a
    rw [c2, hws] at b
    cases b
  have hok : ∀ (e' : ELM K), e'.classification = e.classification → e'.wc = e.wc → ∀ t : List (List K), (∀ r ∈ t, r ∈ t1 ∨ r ∈ t2) →
      AutoOk env e' ⟨tc, t⟩ := by
    intro e' c1 c2 t ht
    have hot : e'.classification = some "wc" → OneHot (⟨tc, t⟩ : Mat K) := by
      intro hcls r hr
      rw [c1] at hcls
      obtain ⟨_, o1, o2⟩ := hw hcls
      rcases ht r hr with h | h
      · exact o1 r h
      · exact o2 r h
    refine ⟨fun h => oneHot_oneEach (hot h), ?_⟩
    rw [hauto e' c1 c2]
    intro hcls
    obtain ⟨⟨ws, hws, hl⟩, _⟩ := hw (by rw [← c1]; exact hcls)
    rw [c2, hws]
    exact explicit_WOk (fun h => hot h) hl hcls
  rw [addData_wts (X := ⟨xc, x1 ++ x2⟩) hb (by simp; omega) (by simp [h1, h2])
    (hok e rfl rfl _ (by intro r hr; exact List.mem_append.1 hr))]
  rw [addData_wts (X := ⟨xc, x1⟩) hb (by simpa using p1) (by simpa using h1) (hok e rfl rfl _ (by intro r hr; exact Or.inl hr))]
  rw [hauto e rfl rfl, hauto e rfl rfl]
  have hwts : wts e.classification e.wc ⟨tc, t1 ++ t2⟩ = wApp (wts e.classification e.wc ⟨tc, t1⟩) (wts e.classification e.wc ⟨tc, t2⟩) := by
    unfold wts
    split
    · simp [wApp]
    · rfl
  have hwl : ∀ (t : List (List K)) v, wts e.classification e.wc ⟨tc, t⟩ = some v → v.length = t.length := by
    intro t v hv
    unfold wts at hv
    split at hv
    · injection hv with hv; rw [← hv]; simp
    · cases hv
  rw [hwts, addBatch_append env e.nnet h1 h2 (by unfold wts; split <;> rfl)
    (by intro v hv; rw [hwl _ v hv, h1]) (by intro v hv; rw [hwl _ v hv, h2])]
  cases e.nnet.addBatch env ⟨xc, x1⟩ ⟨tc, t1⟩ (wts e.classification e.wc ⟨tc, t1⟩) with
  | error x => rfl
  | ok n =>
    simp only [Except.map, Except.bind]
    rw [addData_wts (X := ⟨xc, x2⟩) (e := { e with nnet := n }) hb (by simpa using p2) (by simpa using h2)
      (hok { e with nnet := n } rfl rfl _ (by intro r hr; exact Or.inr hr))]
    rw [hauto { e with nnet := n } rfl rfl]
    rfl

example : ((exModel 2 2 (some "wc") (some [some 4, some 9])).addData QEnv.env ⟨2, [[1, 0], [0, 1]]⟩ ⟨2, [[1, 0], [0, 1]]⟩).bind
      (fun e => e.addData QEnv.env ⟨2, [[1, 1], [1, 1], [1, 1]]⟩ ⟨2, [[0, 1], [1, 0], [1, 0]]⟩) =
    (exModel 2 2 (some "wc") (some [some 4, some 9])).addData QEnv.env ⟨2, [[1, 0], [0, 1], [1, 1], [1, 1], [1, 1]]⟩
      ⟨2, [[1, 0], [0, 1], [0, 1], [1, 0], [1, 0]]⟩ ∧
    ((exModel 2 2 (some "wc") (some [some 4, some 9])).addData QEnv.env ⟨2, [[1, 0], [0, 1], [1, 1], [1, 1], [1, 1]]⟩
      ⟨2, [[1, 0], [0, 1], [0, 1], [1, 0], [1, 0]]⟩).isOk = true := by decide +kernel

/-! ## C12 order of the samples -/

theorem colSums_perm {c : Nat} {r1 r2 : List (List K)} (h : r1.Perm r2) : colSums ⟨c, r1⟩ = colSums ⟨c, r2⟩ := by
  unfold colSums
  apply List.map_congr_left
  intro j _
  exact (h.map _).sum_eq

theorem OneHot.perm {c : Nat} {r1 r2 : List (List K)} (h : r1.Perm r2) (h1 : OneHot (⟨c, r1⟩ : Mat K)) : OneHot (⟨c, r2⟩ : Mat K) :=
  fun r hr => h1 r (h.mem_iff.2 hr)

/-- C12 for `add_data`, weighted or not, with automatic or given weights: the samples (with their targets) may be given in any
order. -/
theorem C12_order_add_data [IsStrictOrderedRing K] (env : Env K) (hx : env.Exact) (e : ELM K) (X T X' T' : Mat K) (hb : 0 < e.batch)
    (hN : X.nrows = T.nrows) (hN' : X'.nrows = T'.nrows) (hXc : X'.cols = X.cols) (hTc : T'.cols = T.cols)
    (hperm : (X'.rows.zip T'.rows).Perm (X.rows.zip T.rows))
    (hw : e.classification = some "wc" →
      OneHot T ∧ (e.wc = none ∨ ∃ ws : List K, e.wc = some (ws.map some) ∧ ws.length = T.cols)) :
    e.addData env X' T' = e.addData env X T := by
  obtain ⟨u1, u2⟩ := unzip_rows hN
  obtain ⟨v1, v2⟩ := unzip_rows hN'
  have hT : T'.rows.Perm T.rows := by rw [v2, u2]; exact hperm.map _
  have hlen : X'.nrows = X.nrows := by
    have := hperm.length_eq
    simp only [List.length_zip] at this
    unfold Mat.nrows at *
    omega
  obtain ⟨xc, xr⟩ := X
  obtain ⟨tc, tr⟩ := T
  obtain ⟨xc', xr'⟩ := X'
  obtain ⟨tc', tr'⟩ := T'
  simp only at hXc hTc u1 u2 v1 v2 hperm hT
  subst hXc hTc
  by_cases hn : (⟨xc', xr⟩ : Mat K).nrows = 0
  · rw [addData_empty hb hn, addData_empty hb (by rw [hlen, hn])]
  · have hn' : 0 < (⟨xc', xr⟩ : Mat K).nrows := Nat.pos_of_ne_zero hn
    have hok : ∀ t : List (List K), (t.Perm tr) → AutoOk env e ⟨tc', t⟩ := by
      intro t ht
      refine ⟨fun h => oneHot_oneEach (OneHot.perm ht.symm (hw h).1), ?_⟩
      intro hcls
      exact autoWc_WOk hx (fun h => OneHot.perm ht.symm (hw h).1) (hw hcls).2 hcls
    rw [addData_wts hb hn' hN (hok _ (List.Perm.refl _)), addData_wts hb (by omega) hN' (hok _ hT), colSums_perm hT]
    congr 1
    have := addBatch_perm env e.nnet xc' tc' hperm e.classification (e.autoWc env (colSums ⟨tc', tr⟩)).wc
    rw [← u1, ← u2, ← v1, ← v2] at this
    exact this

/-- If the body of `train` does not see the order of the samples, neither does `train`. -/
theorem train_order_of [IsStrictOrderedRing K] (env : Env K) (hx : env.Exact) (fs : Files K) (rnd : Rnd) (e : ELM K)
    (X T X' T' : Mat K) (args : List String) (kw : Kwargs K) (hb : 0 < kw.batch.getD e.batch)
    (hN : X.nrows = T.nrows) (hN' : X'.nrows = T'.nrows) (hXc : X'.cols = X.cols) (hTc : T'.cols = T.cols)
    (hperm : (X'.rows.zip T'.rows).Perm (X.rows.zip T.rows)) (hT : Given args "WC" → OneHot T)
    (hbody : ∀ e1 : ELM K, e1.addData env X' T' = e1.addData env X T →
      (∀ (e2 : ELM K) (best : List Nat), e2.refit env best X' T' = e2.refit env best X T) →
      e1.trainBody env fs rnd X' T' args kw = e1.trainBody env fs rnd X T args kw) :
    e.train env fs rnd (.mat X') (.mat T') args kw = e.train env fs rnd (.mat X) (.mat T) args kw := by
  have hlen : X'.nrows = X.nrows := by
    have := hperm.length_eq
    simp only [List.length_zip] at this
    unfold Mat.nrows at *
    omega
  have hc : checkBoth fs e.nnet (.mat X') (.mat T') = (checkBoth fs e.nnet (.mat X) (.mat T)).map fun _ => (X', T') := by
    have h1 : ∀ (M N : Mat K), checkBoth fs e.nnet (.mat M) (.mat N) = (do
        pyAssert (M.cols = e.nnet.inputs)
        pyAssert (N.cols = e.nnet.outputs)
        pyAssert (M.nrows = N.nrows)
        pure (M, N)) := by
      intro M N
      unfold checkBoth checkData checkOne
      simp only [pure, Except.pure, bind, Except.bind, pyAssert]
      by_cases a : M.cols = e.nnet.inputs
      · by_cases b : N.cols = e.nnet.outputs
        · by_cases c : M.nrows = N.nrows <;> simp [a, b, c]
        · simp [a, b]
      · simp [a]
    rw [h1, h1]
    rw [hXc, hTc]
    simp only [hN', hN, decide_true, pyAssert, if_true, bind, Except.bind, pure, Except.pure]
    by_cases a : X.cols = e.nnet.inputs <;> by_cases b : T.cols = e.nnet.outputs <;> simp [a, b, Except.map]
  unfold ELM.train
  rw [hc]
  cases hcb : checkBoth fs e.nnet (.mat X) (.mat T) with
  | error x => rfl
  | ok p =>
    simp only [Except.map]
    have hp : p = (X, T) := by
      unfold checkBoth checkData checkOne at hcb
      simp only [pure, Except.pure, bind, Except.bind, pyAssert] at hcb
      by_cases a : X.cols = e.nnet.inputs
      · by_cases b : T.cols = e.nnet.outputs
        · simp [a, b, hN] at hcb
          exact hcb.symm
        · simp [a, b] at hcb
      · simp [a] at hcb
    subst hp
    obtain ⟨_, hcols, _⟩ := checkBoth_ok hcb
    rcases hpa : e.parseArgs args kw with ⟨e1, (x | u)⟩
    · rfl
    · simp only
      obtain ⟨w1, w2⟩ := parseArgs_wc hpa
      have hb1 : 0 < e1.batch := by
        have : e1.batch = kw.batch.getD e.batch := by
          unfold ELM.parseArgs at hpa
          split at hpa
          · cases hpa
          simp only at hpa
          split at hpa
          · cases hpa
          split at hpa
          · cases hpa
          have hloop : ∀ (as : List String) (e : ELM K), (parseLoop kw as e).1.batch = e.batch := by
            intro as
            induction as with
            | nil => intro e; rfl
            | cons a as ih =>
              intro e
              have h1 : (parseOne kw e a).1.batch = e.batch := by
                unfold parseOne
                repeat' split
                all_goals first | rfl | (simp only []; repeat' split)
                all_goals rfl
              unfold parseLoop
              split
              · rename_i heq; rw [heq] at h1; exact h1
              · rename_i heq; rw [heq] at h1; rw [ih]; exact h1
          have hl := hloop (args.map upper)
            { e with nnet := e.nnet.reset, rankingOP := false, kmaxOp := none, classification := none, wc := none }
          split at hpa
          · cases hpa
          · rename_i e' heq
            rw [heq] at hl
            injection hpa with hpa _
            rw [← hpa]
            cases kw.batch <;> first | rfl | exact hl
        rw [this]; exact hb
      have hadd : e1.addData env X' T' = e1.addData env X T := by
        apply C12_order_add_data env hx e1 X T X' T' hb1 hN hN' hXc hTc hperm
        intro hcls
        rw [hcols]
        exact ⟨hT (w1 hcls), w2⟩
      have hrefit : ∀ (e2 : ELM K) (best : List Nat), e2.refit env best X' T' = e2.refit env best X T := by
        intro e2 best
        unfold ELM.refit
        simp only
        have : (e2.nnet.prune best).addBatch env X' T' none = (e2.nnet.prune best).addBatch env X T none := by
          have h := addBatch_perm env (e2.nnet.prune best) X.cols T.cols hperm none none
          obtain ⟨u1, u2⟩ := unzip_rows hN
          obtain ⟨v1, v2⟩ := unzip_rows hN'
          rw [← u1, ← u2, ← v1, ← v2] at h
          have eX : X' = ⟨X.cols, X'.rows⟩ := by rw [← hXc]
          have eT : T' = ⟨T.cols, T'.rows⟩ := by rw [← hTc]
          rw [eX, eT]
          exact h
        rw [this]
      rw [hbody e1 hadd hrefit]

/-- C12 for `train`: plain training, and training with structure selection on a separate validation set ('V'): the result
and the trained object are the same for any order of the training samples. -/
theorem C12_order_train [IsStrictOrderedRing K] (env : Env K) (hx : env.Exact) (fs : Files K) (rnd : Rnd) (e : ELM K)
    (X T X' T' : Mat K) (args : List String) (kw : Kwargs K) (hcv : "CV" ∉ args) (hloo : "LOO" ∉ args)
    (hb : 0 < kw.batch.getD e.batch)
    (hN : X.nrows = T.nrows) (hN' : X'.nrows = T'.nrows) (hXc : X'.cols = X.cols) (hTc : T'.cols = T.cols)
    (hperm : (X'.rows.zip T'.rows).Perm (X.rows.zip T.rows)) (hT : Given args "WC" → OneHot T) :
    e.train env fs rnd (.mat X') (.mat T') args kw = e.train env fs rnd (.mat X) (.mat T) args kw := by
  refine train_order_of env hx fs rnd e X T X' T' args kw hb hN hN' hXc hTc hperm hT fun e1 hadd hrefit => ?_
  unfold ELM.trainBody
  simp only [hcv, hloo, if_false, hadd]
  split
  · cases kw.Xv with
    | none => rfl
    | some Xv =>
      cases kw.Tv with
      | none => rfl
      | some Tv =>
        simp only
        congr 1
        funext ⟨xv, tv⟩
        simp only
        rw [trainV_eq, trainV_eq, hadd]
        unfold trainVrest
        simp only [hrefit]
  · rfl

/-- Three samples in two orders, automatic class weights. -/
example : ((exModel 2 2 none none).train QEnv.env (fun _ => none) ⟨fun _ => []⟩ (.mat ⟨2, [[1, 0], [0, 1], [2, 3]]⟩)
      (.mat ⟨2, [[1, 0], [0, 1], [1, 0]]⟩) ["wc"] {}) =
    ((exModel 2 2 none none).train QEnv.env (fun _ => none) ⟨fun _ => []⟩ (.mat ⟨2, [[2, 3], [1, 0], [0, 1]]⟩)
      (.mat ⟨2, [[1, 0], [1, 0], [0, 1]]⟩) ["wc"] {}) ∧
    ((exModel 2 2 none none).train QEnv.env (fun _ => none) ⟨fun _ => []⟩ (.mat ⟨2, [[1, 0], [0, 1], [2, 3]]⟩)
      (.mat ⟨2, [[1, 0], [0, 1], [1, 0]]⟩) ["wc"] {}).1 = .ok none := by decide +kernel

/-! ## C13 training forgets -/

/-- Same model with other output weights. -/
def withB (e : ELM K) (B : Option (Mat K)) : ELM K := { e with nnet := { e.nnet with B := B } }

theorem parseOne_withB (kw : Kwargs K) (e : ELM K) (B) (a : String) :
    parseOne kw (withB e B) a = (withB (parseOne kw e a).1 B, (parseOne kw e a).2) := by
  unfold parseOne
  have h1 : (withB e B).nnet.outputs = e.nnet.outputs := rfl
  simp only [h1]
  split
  · rfl
  split
  · split <;> rfl
  split
  · split
    · cases kw.w with
      | none => rfl
      | some w =>
        simp only
        split <;> rfl
    · rfl
  split
  · split <;> rfl
  split <;> rfl

theorem parseLoop_withB (kw : Kwargs K) (as : List String) (e : ELM K) (B) :
    parseLoop kw as (withB e B) = (withB (parseLoop kw as e).1 B, (parseLoop kw as e).2) := by
  induction as generalizing e with
  | nil => rfl
  | cons a as ih =>
    unfold parseLoop
    rw [parseOne_withB]
    rcases parseOne kw e a with ⟨e', (x | u)⟩
    · rfl
    · exact ih e'

/-- Parsing the arguments of a training call forgets what earlier training left behind. -/
theorem parse_forgets (e e' : ELM K) (args : List String) (kw : Kwargs K)
    (h1 : e.nnet.neurons = e'.nnet.neurons) (h2 : e.nnet.norm = e'.nnet.norm) (h3 : e.nnet.inputs = e'.nnet.inputs)
    (h4 : e.nnet.outputs = e'.nnet.outputs) (h5 : e.nnet.solver = e'.nnet.solver) (h6 : e.nnet.prec = e'.nnet.prec)
    (h7 : e.prec = e'.prec) (h8 : e.accelerator = e'.accelerator) (h9 : kw.batch = none → e.batch = e'.batch)
    (hne : ¬ e.nnet.neurons.isEmpty = true) (hne' : ¬ e'.nnet.neurons.isEmpty = true) :
    ∃ (e1 e1' : ELM K) (r : Except PyErr Unit),
      e.parseArgs args kw = (e1, r) ∧ e'.parseArgs args kw = (e1', r) ∧
      (r = .ok () → e1.core = e1'.core) ∧ (r = .ok () → e1.batch = e1'.batch) ∧ (r = .ok () → e1.accelerator = e1'.accelerator) := by
  -- core of the state after resetting
  have hstart : ({ e' with nnet := e'.nnet.reset, rankingOP := false, kmaxOp := none, classification := none, wc := none, batch := e.batch } : ELM K)
      = withB { e with nnet := e.nnet.reset, rankingOP := false, kmaxOp := none, classification := none, wc := none } e'.nnet.B := by
    unfold withB NNet.reset
    simp only [h1, h2, h3, h4, h5, h6, h7, h8]
  have hbatch : ∀ (as : List String) (x : ELM K) (c : Int), parseLoop kw as { x with batch := c }
      = ({ (parseLoop kw as x).1 with batch := c }, (parseLoop kw as x).2) := by
    intro as
    induction as with
    | nil => intro x c; rfl
    | cons a as ih =>
      intro x c
      have ho : parseOne kw { x with batch := c } a = ({ (parseOne kw x a).1 with batch := c }, (parseOne kw x a).2) := by
        unfold parseOne
        split
        · rfl
        split
        · split <;> rfl
        split
        · split
          · cases kw.w with
            | none => rfl
            | some w =>
              simp only
              split <;> rfl
          · rfl
        split
        · split <;> rfl
        split <;> rfl
      unfold parseLoop
      rw [ho]
      rcases parseOne kw x a with ⟨y, (z | u)⟩
      · rfl
      · exact ih y c
  -- result of parsing for both
  unfold ELM.parseArgs
  rw [if_neg hne, if_neg hne']
  simp only
  by_cases g1 : (!atMostOne (args.map upper) ["V", "CV", "LOO"]) = true
  · rw [if_pos g1, if_pos g1]
    exact ⟨_, _, _, rfl, rfl, by simp, by simp, by simp⟩
  rw [if_neg g1, if_neg g1]
  by_cases g2 : (!atMostOne (args.map upper) ["C", "WC", "ML", "MC"]) = true
  · rw [if_pos g2, if_pos g2]
    exact ⟨_, _, _, rfl, rfl, by simp, by simp, by simp⟩
  rw [if_neg g2, if_neg g2]
  have hl := parseLoop_withB kw (args.map upper)
    { e with nnet := e.nnet.reset, rankingOP := false, kmaxOp := none, classification := none, wc := none } e'.nnet.B
  rw [← hstart] at hl
  have hl2 := hbatch (args.map upper)
    { e' with nnet := e'.nnet.reset, rankingOP := false, kmaxOp := none, classification := none, wc := none } e.batch
  rw [hl2] at hl
  have hbl : ∀ (as : List String) (x : ELM K), (parseLoop kw as x).1.batch = x.batch := by
    intro as x
    have := hbatch as x x.batch
    have e0 : ({ x with batch := x.batch } : ELM K) = x := rfl
    rw [e0] at this
    have := congrArg (fun p => p.1.batch) this
    exact this
  have hba := hbl (args.map upper)
    { e with nnet := e.nnet.reset, rankingOP := false, kmaxOp := none, classification := none, wc := none }
  have hba' := hbl (args.map upper)
    { e' with nnet := e'.nnet.reset, rankingOP := false, kmaxOp := none, classification := none, wc := none }
  rcases hx : parseLoop kw (args.map upper)
    { e with nnet := e.nnet.reset, rankingOP := false, kmaxOp := none, classification := none, wc := none } with ⟨y, (z | u)⟩
  · rcases hx' : parseLoop kw (args.map upper)
      { e' with nnet := e'.nnet.reset, rankingOP := false, kmaxOp := none, classification := none, wc := none } with ⟨y', (z' | u')⟩
    · rw [hx, hx'] at hl
      injection hl with _ hl
      injection hl with hl
      subst hl
      exact ⟨_, _, _, rfl, rfl, by simp, by simp, by simp⟩
    · rw [hx, hx'] at hl
      injection hl with _ hl
      cases hl
  · rcases hx' : parseLoop kw (args.map upper)
      { e' with nnet := e'.nnet.reset, rankingOP := false, kmaxOp := none, classification := none, wc := none } with ⟨y', (z' | u')⟩
    · rw [hx, hx'] at hl
      injection hl with _ hl
      cases hl
    · rw [hx] at hba
      rw [hx'] at hba'
      rw [hx, hx'] at hl
      injection hl with hl _
      simp only at hl hba hba'
      have hyc : y.core = y'.core := by
        have := congrArg ELM.core hl
        exact this.symm
      have hya : y.accelerator = y'.accelerator := by
        have := congrArg ELM.accelerator hl
        exact this.symm
      refine ⟨_, _, .ok (), rfl, rfl, fun _ => ?_, fun _ => ?_, fun _ => ?_⟩
      · cases kw.batch <;> exact hyc
      · cases hk : kw.batch with
        | none => simp only; rw [hba, hba', h9 hk]
        | some v => rfl
      · cases kw.batch <;> exact hya

/-- C13.  Two objects with the same neurons, regularisation, sizes and solver, but any difference in accumulated data, output
weights, classification kind, class weights and ranking settings (everything earlier training may have left behind):
`train` returns the same value or exception, and if it succeeds the two objects are identical afterwards.  Holds for plain
training and for every structure selection.  (The batch size is the one of the call or, if none is given, the stored one.) -/
theorem C13_forgets (env : Env K) (fs : Files K) (rnd : Rnd) (e e' : ELM K) (X T : DataArg K) (args : List String) (kw : Kwargs K)
    (h1 : e.nnet.neurons = e'.nnet.neurons) (h2 : e.nnet.norm = e'.nnet.norm) (h3 : e.nnet.inputs = e'.nnet.inputs)
    (h4 : e.nnet.outputs = e'.nnet.outputs) (h5 : e.nnet.solver = e'.nnet.solver) (h6 : e.nnet.prec = e'.nnet.prec)
    (h7 : e.prec = e'.prec) (h8 : e.accelerator = e'.accelerator) (h9 : kw.batch = none → e.batch = e'.batch) :
    (e.train env fs rnd X T args kw).1 = (e'.train env fs rnd X T args kw).1 ∧
    (∀ r, (e.train env fs rnd X T args kw).1 = .ok r →
      (e.train env fs rnd X T args kw).2 = (e'.train env fs rnd X T args kw).2) := by
  have hcb : checkBoth fs e.nnet X T = checkBoth fs e'.nnet X T := by
    unfold checkBoth checkData
    rw [h3, h4]
  by_cases hne : e.nnet.neurons.isEmpty = true
  · have hne' : e'.nnet.neurons.isEmpty = true := by rw [← h1]; exact hne
    unfold ELM.train
    rw [hcb]
    cases checkBoth fs e'.nnet X T with
    | error x => exact ⟨rfl, fun r hr => by cases hr⟩
    | ok p =>
      simp only [ELM.parseArgs, hne, hne', if_true]
      exact ⟨trivial, fun r hr => by cases hr⟩
  · have hne' : ¬ e'.nnet.neurons.isEmpty = true := by rw [← h1]; exact hne
    obtain ⟨e1, e1', r, hp, hp', hcore, hbat, hacc⟩ := parse_forgets e e' args kw h1 h2 h3 h4 h5 h6 h7 h8 h9 hne hne'
    unfold ELM.train
    rw [hcb]
    cases checkBoth fs e'.nnet X T with
    | error x => exact ⟨rfl, fun r hr => by cases hr⟩
    | ok p =>
      obtain ⟨X', T'⟩ := p
      simp only
      rw [hp, hp']
      rcases r with x | u
      · exact ⟨rfl, fun r hr => by cases hr⟩
      · simp only
        have hc := hcore rfl
        have hadd := addData_core_same (env := env) X' T' hc (hbat rfl)
        have hbody := trainBody_core (env := env) (fs := fs) (rnd := rnd) (args := args) (kw := kw) hc hadd
        cases hb1 : e1.trainBody env fs rnd X' T' args kw with
        | error x =>
          cases hb2 : e1'.trainBody env fs rnd X' T' args kw with
          | error y =>
            rw [hb1, hb2] at hbody
            injection hbody with hbody
            subst hbody
            exact ⟨rfl, fun r hr => by cases hr⟩
          | ok y => rw [hb1, hb2] at hbody; cases hbody
        | ok x =>
          cases hb2 : e1'.trainBody env fs rnd X' T' args kw with
          | error y => rw [hb1, hb2] at hbody; cases hbody
          | ok y =>
            have f1 := (trainBody_frame hb1).accelerator
            have f2 := (trainBody_frame hb2).accelerator
            have f3 := trainBody_batch hb1
            have f4 := trainBody_batch hb2
            rw [hb1, hb2] at hbody
            injection hbody with hbody
            injection hbody with g1 g2
            obtain ⟨x1, x2⟩ := x
            obtain ⟨y1, y2⟩ := y
            simp only at g1 g2 f1 f2 f3 f4 ⊢
            refine ⟨by rw [g1], fun _ _ => ?_⟩
            have hacc' : x2.accelerator = y2.accelerator := by rw [f1, f2, hacc rfl]
            have hbat' : x2.batch = y2.batch := by rw [f3, f4, hbat rfl]
            unfold ELM.shell at g2
            injection g2 with a1 a2 a3 a4 a5 a6 a7 a8
            obtain ⟨_, _, _, _, _, _, _, _⟩ := x2
            obtain ⟨_, _, _, _, _, _, _, _⟩ := y2
            simp only at a1 a3 a5 a6 a7 a8 hacc' hbat'
            subst a1 a3 a5 a6 a7 a8 hacc' hbat'
            rfl

/-- A used model and a fresh one: after the same call the objects are the same. -/
example : ((exModel 2 2 none none).train QEnv.env (fun _ => none) ⟨fun _ => []⟩ (.mat ⟨2, [[1, 0], [0, 1], [2, 3]]⟩)
      (.mat ⟨2, [[1, 0], [0, 1], [1, 0]]⟩) ["c"] {}) =
    (({ exModel 2 2 (some "wc") (some [some 1, some 2]) with
        nnet := { (exModel 2 2 none none).nnet with B := some ⟨2, [[1, 1], [1, 1]]⟩, corr := some (⟨2, [[1, 1], [1, 1]]⟩, ⟨2, [[1, 1], [1, 1]]⟩) } }
      : ELM ℚ).train QEnv.env (fun _ => none) ⟨fun _ => []⟩ (.mat ⟨2, [[1, 0], [0, 1], [2, 3]]⟩)
      (.mat ⟨2, [[1, 0], [0, 1], [1, 0]]⟩) ["c"] {}) ∧
    ((exModel 2 2 none none).train QEnv.env (fun _ => none) ⟨fun _ => []⟩ (.mat ⟨2, [[1, 0], [0, 1], [2, 3]]⟩)
      (.mat ⟨2, [[1, 0], [0, 1], [1, 0]]⟩) ["c"] {}).1 = .ok none := by decide +kernel

end Hpelm.Props
