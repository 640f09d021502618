import Verif.Props.C89_FailedTraining

/-!
# C89 for weighted classification
-/

set_option linter.unusedSectionVars false

namespace Hpelm.Props
open Hpelm Spec
variable {K : Type} [Field K] [LinearOrder K]

/-- Adding a batch of fitting shapes, with one weight per sample or none, cannot fail. -/
theorem addBatchS_fresh_w {env : Env K} {n : NNet K} {X T H : Mat K} {w : Option (List K)} (hc : Consistent n) (hp : n.project env X = .ok H)
    (hN : X.nrows = T.nrows) (hT : T.cols = n.outputs) (hw : ∀ v, w = some v → v.length = T.nrows) :
    ∃ c, n.addBatchS env X T w = ({ n with corr := some c }, .ok ()) := by
  have hne := ((project_ok_iff env n X H).1 hp).2.2.1
  have h0 := corr0_shape hc (L_of_ne hc hne)
  have hL := L_of_ne hc hne
  obtain ⟨w1, w2, w3⟩ := project_WF hc hp
  have hcol : H.cols = n.corr0.1.cols := by
    have := h0.2.2.2.1
    rw [hL] at this
    injection this with this
    rw [w3, this]
  have hTn : (T.map (env.cast n.prec)).nrows = T.nrows := by simp [Mat.nrows, Mat.map]
  obtain ⟨H', T', hw', c1, c2, r1, r2⟩ : ∃ H' T', weighted env n.prec w H (T.map (env.cast n.prec)) = .ok (H', T') ∧ H'.cols = H.cols ∧
      T'.cols = T.cols ∧ H'.nrows = X.nrows ∧ T'.nrows = T.nrows := by
    cases w with
    | none => exact ⟨H, _, rfl, rfl, rfl, w2, hTn⟩
    | some v =>
      have hv := hw v rfl
      unfold weighted
      simp only
      rw [scaleRows_length_eq (by rw [List.length_map, hv, w2, hN])]
      simp only [bind, Except.bind]
      rw [scaleRows_length_eq (by rw [List.length_map, hv, hTn])]
      refine ⟨_, _, rfl, rfl, rfl, ?_, ?_⟩
      · have : H.rows.length = X.nrows := w2
        simp [Mat.nrows, hv, this] at *
        omega
      · simp [Mat.nrows, hv] at *
  rw [addBatchS_eq, hp]
  simp only [hw']
  rw [if_neg (by rw [c1]; simpa using hcol), if_neg (by rw [r1, r2, hN]; simp)]
  have : n.addHT n.corr0.2 (H'.tmul T') = some (n.corr0.2.add (H'.tmul T')) := by
    unfold NNet.addHT
    rw [if_pos]
    rw [h0.2.2.2.2.2, ← hT, ← c2]
    rfl
  rw [this]
  exact ⟨_, rfl⟩

/-- If the weights of all batches are defined, adding data to a consistent network either succeeds or changes nothing in the network. -/
theorem feedS_atomic_w {env : Env K} {ic oc : Nat} (bs : List (List (List K) × List (List K))) {e e' : ELM K} {x} (hc : Consistent e.nnet)
    (hw : ∀ b ∈ bs, ∃ w, batchWeights e.classification e.wc ⟨oc, b.2⟩ = .ok w ∧ ∀ v, w = some v → v.length = b.2.length)
    (ho : oc = e.nnet.outputs) (hl : ∀ b ∈ bs, b.1.length = b.2.length)
    (h : e.feedS env ic oc bs = (e', .error x)) : e'.nnet = e.nnet := by
  by_cases hp : ic = e.nnet.inputs ∧ (∀ g ∈ e.nnet.neurons, (groupAct env g).isSome) ∧ e.nnet.neurons ≠ []
  · exfalso
    have key : ∀ (bs' : List (List (List K) × List (List K))) (f : ELM K), (∀ b ∈ bs', b ∈ bs) → SameNet e.nnet f.nnet →
        Consistent f.nnet → f.classification = e.classification → f.wc = e.wc → (f.feedS env ic oc bs').2 = .ok () := by
      intro bs'
      induction bs' with
      | nil => intro f _ _ _ _ _; rfl
      | cons b bs' ih =>
        intro f hm hs hcf hcl hwc
        obtain ⟨w, hw1, hw2⟩ := hw b (hm b List.mem_cons_self)
        have hlb := hl b (hm b List.mem_cons_self)
        obtain ⟨Xb, Tb⟩ := b
        obtain ⟨c, hn⟩ := hs
        unfold ELM.feedS
        rw [hcl, hwc, hw1]
        simp only
        have hproj := (project_ok_iff env f.nnet ⟨ic, Xb⟩ _).2 ⟨by rw [hn]; exact hp.1, by rw [hn]; exact hp.2.1, by rw [hn]; exact hp.2.2, rfl⟩
        obtain ⟨c', h'⟩ := addBatchS_fresh_w (T := ⟨oc, Tb⟩) hcf hproj hlb (by rw [hn]; exact ho) hw2
        have hc' := addBatchS_consistent (env := env) (X := ⟨ic, Xb⟩) (T := ⟨oc, Tb⟩) (w := w) hcf
        rw [h'] at hc' ⊢
        exact ih _ (fun b hb => hm b (List.mem_cons_of_mem _ hb)) ⟨some c', by rw [hn]⟩ hc' rfl rfl
    have := key bs e (fun _ h => h) (SameNet.rfl' _) hc rfl rfl
    rw [h] at this
    cases this
  · cases bs with
    | nil => cases h
    | cons b bs =>
      obtain ⟨w, hw1, _⟩ := hw b List.mem_cons_self
      obtain ⟨Xb, Tb⟩ := b
      unfold ELM.feedS at h
      rw [hw1] at h
      simp only at h
      cases hq : e.nnet.project env ⟨ic, Xb⟩ with
      | ok H =>
        exfalso
        obtain ⟨a, b, c, _⟩ := (project_ok_iff _ _ _ _).1 hq
        exact hp ⟨a, b, c⟩
      | error y =>
        rw [addBatchS_eq, hq] at h
        injection h with h _
        rw [← h]

section ordered
variable [IsStrictOrderedRing K]

theorem splitSizes_mem : ∀ (ss : List Nat) (l : List (List K)), ∀ b ∈ splitSizes ss l, ∀ r ∈ b, r ∈ l := by
  intro ss
  induction ss with
  | nil => intro l b hb; cases hb
  | cons s ss ih =>
    intro l b hb r hr
    simp only [splitSizes, List.mem_cons] at hb
    rcases hb with rfl | hb
    · exact List.mem_of_mem_take hr
    · exact List.mem_of_mem_drop (ih _ b hb r hr)

theorem addDataS_atomic_w {env : Env K} (hx : env.Exact) {e e' : ELM K} {X T : Mat K} {x} (hc : Consistent e.nnet)
    (hT : e.classification = some "wc" → OneHot T) (hw : e.wc = none ∨ ∃ ws : List K, e.wc = some (ws.map some) ∧ ws.length = T.cols)
    (ho : T.cols = e.nnet.outputs) (hN : X.nrows = T.nrows) (h : e.addDataS env X T = (e', .error x)) : e'.nnet = e.nnet := by
  unfold ELM.addDataS at h
  split at h
  · injection h with h _; rw [← h]
  · have ha : (e.autoWc env (colSums T)).nnet = e.nnet := by
      unfold ELM.autoWc
      split <;> rfl
    have hwk := autoWc_WOk hx hT hw
    rw [← autoWc_cls env e (colSums T)] at hwk hT
    generalize hf : e.autoWc env (colSums T) = f at *
    simp only at h
    split at h
    · injection h with h _; rw [← h, ← ha]
    · injection h with h _; rw [← h, ← ha]
    · rename_i hX hT'
      unfold arraySplit at hX hT'
      split at hX
      · cases hX
      · rename_i hk
        rw [if_neg hk] at hT'
        injection hX with hX
        injection hT' with hT'
        subst hX hT'
        have hlen : ∀ (ss : List Nat) (l l' : List (List K)), l.length = l'.length → ∀ b ∈ (splitSizes ss l).zip (splitSizes ss l'), b.1.length = b.2.length := by
          intro ss
          induction ss with
          | nil => intro l l' _ b hb; cases hb
          | cons s ss ih =>
            intro l l' hl b hb
            simp only [splitSizes, List.zip_cons_cons, List.mem_cons] at hb
            rcases hb with rfl | hb
            · simp [hl]
            · exact ih _ _ (by simp [hl]) b hb
        have hle : X.rows.length = T.rows.length := hN
        rw [hle] at h
        rw [← ha]
        refine feedS_atomic_w _ (by rw [ha]; exact hc) ?_ (by rw [ha]; exact ho) (fun b hb => hlen _ _ _ hle b hb) h
        intro b hb
        have hmem : ∀ r ∈ b.2, r ∈ T.rows := splitSizes_mem _ _ b.2 (List.of_mem_zip hb).2
        have h1 : f.classification = some "wc" → OneEach T.cols b.2 := fun hcl r hr => oneHot_oneEach (hT hcl) r (hmem r hr)
        have h2 : WOk f.classification f.wc ⟨T.cols, b.2⟩ := by
          intro hcl
          obtain ⟨l, hl, hl'⟩ := hwk hcl
          exact ⟨l, hl, fun r hr => hl' r (hmem r hr)⟩
        have := batchWeights_wts (T := ⟨T.cols, b.2⟩) h1 h2
        exact ⟨_, this, batchWeights_length this h1⟩

/-- C89 (partial: training without structure selection).  If `train` raises, the network is as it was before the call, or as after `reset`: no data of
the failed call stay in it.  In weighted classification this needs targets with exactly one class per sample (see `C89_weighted_refuted`). -/
theorem C89_plain_weighted_partial (env : Env K) (hx : env.Exact) (fs : Files K) (rnd : Rnd) (e e' : ELM K) (X T : DataArg K) (args : List String)
    (kw : Kwargs K) (x : PyErr) (hc : Consistent e.nnet) (hm : "V" ∉ args ∧ "CV" ∉ args ∧ "LOO" ∉ args)
    (hT : Given args "WC" → ∀ M, Reads fs T (some M) → OneHot M)
    (h : e.stepS env fs (.train rnd X T args kw) = (some e', .error x)) : e'.nnet = e.nnet ∨ e'.nnet = e.nnet.reset := by
  simp only [ELM.stepS, ELM.trainS] at h
  split at h
  · injection h with h _
    injection h with h
    rw [← h]; exact Or.inl rfl
  · rename_i X' T' h1
    obtain ⟨_, hTo, hN⟩ := checkBoth_ok h1
    have hread : Reads fs T (some T') := by
      unfold checkBoth at h1
      obtain ⟨⟨a, b⟩, h2, h1⟩ := bind_ok h1
      cases a with
      | none => cases h1
      | some A =>
        cases b with
        | none => cases h1
        | some B =>
          injection h1 with h1
          injection h1 with _ h1
          subst h1
          unfold checkData at h2
          obtain ⟨a', _, h2⟩ := bind_ok h2
          obtain ⟨b', hb', h2⟩ := bind_ok h2
          have hb2 : b' = some B := by
            simp only at h2
            split at h2
            · obtain ⟨_, _, h2⟩ := bind_ok h2
              injection h2 with h2
              injection h2 with _ h2
            · injection h2 with h2
              injection h2 with _ h2
          subst hb2
          exact ((checkOne_iff _ _ _ _).1 hb').1
    split at h
    · rename_i e1 _ hp
      injection h with h _
      injection h with h
      have := parseArgs_nnet kw args e
      rw [hp] at this
      rw [← h]
      simp only at this
      split at this
      · exact Or.inl this
      · exact Or.inr this
    · rename_i e1 hp
      have hr := (parseArgs_kw hp).2.1
      have hc1 := parseArgs_consistent hc hp
      obtain ⟨w1, w2⟩ := parseArgs_wc hp
      obtain ⟨h, hx'⟩ := known_some h
      right
      rw [h]
      have hb : ∀ q, e1.trainBodyS env fs rnd X' T' args kw = q → q.2 = .error x → q.1.nnet = e.nnet.reset := by
        intro q hq hq2
        unfold ELM.trainBodyS at hq
        rw [if_neg hm.1, if_neg hm.2.1, if_neg hm.2.2] at hq
        cases h3 : e1.addDataS env X' T' with
        | mk e2 r =>
          rw [h3] at hq
          cases r with
          | error y =>
            rw [← hq, ← hr]
            exact addDataS_atomic_w hx hc1 (fun hcl => hT (w1 hcl) T' hread) (by rw [hTo]; exact w2) (by rw [hTo, hr]; rfl) hN h3
          | ok u =>
            simp only at hq
            have hs := (addDataS_same env e1 X' T').nnet
            rw [h3] at hs
            obtain ⟨c, hn⟩ := hs
            simp only at hn
            split at hq
            · rename_i y hy
              rw [← hq]
              unfold NNet.solve at hy
              split at hy
              · rename_i hcn
                simp only
                rw [hn] at hcn ⊢
                simp only at hcn
                rw [hcn, hr]
                rfl
              · cases hy
            · rw [← hq] at hq2; cases hq2
      exact hb _ rfl hx'.symm

end ordered

/-- C89 (refuted for weighted classification without structure selection).  Two samples without a class come after two with one: `train` raises in
the second batch, the first batch stays in the network, and is part of the next solution. -/
theorem C89_weighted_refuted :
    let ops : List (Op ℚ) := [.addData ⟨2, [[1, 0], [0, 1]]⟩ ⟨2, [[1, 0], [0, 1]]⟩, .solve]
    let failed := (exModel 2 2 none none).runS QEnv.env (fun _ => none)
      (.train ⟨fun _ => []⟩ (.mat ⟨2, [[1, 2], [3, 1], [1, 1], [2, 2]]⟩) (.mat ⟨2, [[1, 0], [0, 1], [0, 0], [0, 0]]⟩) ["wc"] { w := some [1, 1] } :: ops)
    let fresh := (exModel 2 2 (some "wc") (some [some 1, some 1])).runS QEnv.env (fun _ => none) ops
    failed.2 = [.error .valueError, .ok (), .ok ()] ∧ fresh.2 = [.ok (), .ok ()] ∧
      failed.1.map (fun e => (e.classification, e.wc)) = fresh.1.map (fun e => (e.classification, e.wc)) ∧
      failed.1.map (·.nnet.B) ≠ none ∧ failed.1.map (·.nnet.B) ≠ fresh.1.map (·.nnet.B) := by
  decide +kernel

/-- The hypotheses of `C89_plain_weighted_partial` are met: weighted training with an empty data set raises and loses what was fed before. -/
example : ({ exModel 2 2 none none with nnet := { (exModel 2 2 none none).nnet with corr := some (⟨2, [[5, 1], [1, 5]]⟩, ⟨2, [[7, 0], [0, 7]]⟩) } } : ELM ℚ).stepS QEnv.env
    (fun _ => none) (.train ⟨fun _ => []⟩ (.mat ⟨2, []⟩) (.mat ⟨2, []⟩) ["wc"] { w := some [1, 1] }) =
      (some (exModel 2 2 (some "wc") (some [some 1, some 1])), .error .valueError) ∧
    (∀ M, Reads (fun _ => none) (.mat ⟨2, []⟩) (some M) → OneHot (K := ℚ) M) := by
  refine ⟨by decide +kernel, ?_⟩
  intro M hM
  cases hM
  intro r hr
  cases hr

end Hpelm.Props
