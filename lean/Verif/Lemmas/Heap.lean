import Verif.Spec.Memory

/-! # Lemmas about programs over shared arrays -/

set_option linter.unusedSectionVars false

namespace Hpelm
variable {K : Type} [Field K] [LinearOrder K]

/-- The references of the network are distinct existing arrays. -/
structure RState.Sound (s : RState K) : Prop where
  corr : ∀ c, s.net.corr = some c → c.1 < s.heap.next ∧ c.2 < s.heap.next ∧ c.1 ≠ c.2
  B : ∀ b, s.net.B = some b → b < s.heap.next ∧ ∀ c, s.net.corr = some c → b ≠ c.1 ∧ b ≠ c.2

/-- What library code between two states may do: arrays that existed and were not accumulators keep their contents. -/
structure RState.Step (s s' : RState K) : Prop where
  next : s.heap.next ≤ s'.heap.next
  cell : ∀ a < s.heap.next, ¬ Spec.Accumulates s.net a → s'.heap.cell a = s.heap.cell a
  acc : ∀ a < s.heap.next, Spec.Accumulates s'.net a → Spec.Accumulates s.net a
  B : ∀ a < s.heap.next, s'.net.B = some a → s.net.B = some a

theorem RState.Step.refl (s : RState K) : s.Step s := ⟨le_rfl, fun _ _ _ => rfl, fun _ _ h => h, fun _ _ h => h⟩

theorem RState.Step.trans {s t u : RState K} (h1 : s.Step t) (h2 : t.Step u) : s.Step u :=
  ⟨h1.next.trans h2.next,
   fun a ha hn => (h2.cell a (ha.trans_le h1.next) fun h => hn (h1.acc a ha h)).trans (h1.cell a ha hn),
   fun a ha h => h1.acc a ha (h2.acc a (ha.trans_le h1.next) h),
   fun a ha h => h1.B a ha (h2.B a (ha.trans_le h1.next) h)⟩

@[simp] theorem Heap.alloc_next (h : Heap K) (M : Mat K) : (h.alloc M).next = h.next + 1 := rfl
@[simp] theorem Heap.set_next (h : Heap K) (a : Nat) (M : Mat K) : (h.set a M).next = h.next := rfl
theorem Heap.alloc_new (h : Heap K) (M : Mat K) : (h.alloc M).cell h.next = M := if_pos rfl
theorem Heap.alloc_old (h : Heap K) (M : Mat K) {a : Nat} (ha : a ≠ h.next) : (h.alloc M).cell a = h.cell a := if_neg ha
theorem Heap.set_same (h : Heap K) (a : Nat) (M : Mat K) : (h.set a M).cell a = M := if_pos rfl
theorem Heap.set_other (h : Heap K) {a b : Nat} (M : Mat K) (hb : b ≠ a) : (h.set a M).cell b = h.cell b := if_neg hb

/-- First half of `add_batch`: old arrays are kept, the two local arrays hold the weighted projection and targets. -/
theorem RNet.batchArrays_spec (env : Env K) (r : RNet K) (h : Heap K) (aX aT : Nat) (wc : Option (List K)) (hT : aT < h.next) :
    h.next ≤ (r.batchArrays env h aX aT wc).1.next ∧
    (∀ a < h.next, (r.batchArrays env h aX aT wc).1.cell a = h.cell a) ∧
    (match r.base.project env (h.cell aX) with
      | .error x => (r.batchArrays env h aX aT wc).2 = .error x
      | .ok H => match weighted env r.base.prec wc H ((h.cell aT).map (env.cast r.base.prec)) with
        | .error x => (r.batchArrays env h aX aT wc).2 = .error x
        | .ok (H', T') => ∃ aH aT', (r.batchArrays env h aX aT wc).2 = .ok (aH, aT') ∧ h.next ≤ aH ∧ h.next ≤ aT' ∧ aH ≠ aT' ∧
            aH < (r.batchArrays env h aX aT wc).1.next ∧ aT' < (r.batchArrays env h aX aT wc).1.next ∧
            (r.batchArrays env h aX aT wc).1.cell aH = H' ∧ (r.batchArrays env h aX aT wc).1.cell aT' = T') := by
  unfold RNet.batchArrays
  cases hp : r.base.project env (h.cell aX) with
  | error x => exact ⟨le_rfl, fun _ _ => rfl, rfl⟩
  | ok H =>
    simp only
    have e1 : (h.alloc H).cell aT = h.cell aT := Heap.alloc_old _ _ hT.ne
    rw [e1]
    generalize hTc : (h.cell aT).map (env.cast r.base.prec) = Tc
    have eH : ((h.alloc H).alloc Tc).cell h.next = H := by
      rw [Heap.alloc_old _ _ (by simp), Heap.alloc_new]
    have eT : ((h.alloc H).alloc Tc).cell (h.next + 1) = Tc := Heap.alloc_new (h.alloc H) Tc
    have eO : ∀ a < h.next, ((h.alloc H).alloc Tc).cell a = h.cell a := fun a ha => by
      rw [Heap.alloc_old _ _ (by simp; omega), Heap.alloc_old _ _ ha.ne]
    cases wc with
    | none =>
      refine ⟨by simp; omega, eO, ?_⟩
      exact ⟨h.next, h.next + 1, rfl, le_rfl, by omega, by omega, by simp; omega, by simp, eH, eT⟩
    | some wc =>
      simp only [weighted, Heap.scale, Heap.alloc_next, eH]
      generalize (wc.map fun x => env.cast r.base.prec (env.sqrt x)) = w
      cases h1 : scaleRows w H with
      | error x => exact ⟨by simp; omega, eO, rfl⟩
      | ok H' =>
        simp only
        have eT' : (((h.alloc H).alloc Tc).set h.next H').cell (h.next + 1) = Tc := by
          rw [Heap.set_other _ _ (by omega), eT]
        have eO' : ∀ a < h.next, (((h.alloc H).alloc Tc).set h.next H').cell a = h.cell a := fun a ha => by
          rw [Heap.set_other _ _ ha.ne, eO a ha]
        rw [eT']
        cases h2 : scaleRows w Tc with
        | error x =>
          refine ⟨by simp; omega, eO', ?_⟩
          simp [bind, Except.bind]
        | ok T' =>
          refine ⟨by simp; omega, fun a ha => by simp only; rw [Heap.set_other _ _ (by omega), eO' a ha], ?_⟩
          simp only [bind, Except.bind, pure, Except.pure]
          exact ⟨h.next, h.next + 1, rfl, le_rfl, by omega, by omega, by simp; omega, by simp,
            by rw [Heap.set_other _ _ (by omega), Heap.set_same], Heap.set_same _ _ _⟩

theorem not_holds_new {s : RState K} (hs : s.Sound) {a : Nat} (ha : s.heap.next ≤ a) : ¬ Spec.Keeps s.net a := by
  rintro (⟨c, hc, h | h⟩ | h)
  · have := (hs.corr c hc).1; omega
  · have := (hs.corr c hc).2.1; omega
  · have := (hs.B a h).1; omega

theorem not_acc_new {s : RState K} (hs : s.Sound) {a : Nat} (ha : s.heap.next ≤ a) : ¬ Spec.Accumulates s.net a :=
  fun h => not_holds_new hs ha (.inl h)

/-- More memory, same network, held arrays unchanged. -/
theorem RState.Sound.heap {s : RState K} (hs : s.Sound) {h : Heap K} (hn : s.heap.next ≤ h.next) :
    ({ s with heap := h } : RState K).Sound :=
  ⟨fun c hc => ⟨(hs.corr c hc).1.trans_le hn, (hs.corr c hc).2.1.trans_le hn, (hs.corr c hc).2.2⟩,
   fun b hb => ⟨(hs.B b hb).1.trans_le hn, (hs.B b hb).2⟩⟩

theorem RState.Step.ofHeap {s : RState K} {h : Heap K} (hn : s.heap.next ≤ h.next)
    (hc : ∀ a < s.heap.next, h.cell a = s.heap.cell a) : s.Step { s with heap := h } :=
  ⟨hn, fun a ha _ => hc a ha, fun _ _ h => h, fun _ _ h => h⟩

theorem RState.view_heap {s : RState K} (hs : s.Sound) {h : Heap K} (hc : ∀ a < s.heap.next, h.cell a = s.heap.cell a) :
    s.net.view h = s.net.view s.heap := by
  have e1 : s.net.B.map h.cell = s.net.B.map s.heap.cell := by
    cases hb : s.net.B with
    | none => rfl
    | some b => simp [hc b (hs.B b hb).1]
  have e2 : (s.net.corr.map fun c => (h.cell c.1, h.cell c.2)) = s.net.corr.map fun c => (s.heap.cell c.1, s.heap.cell c.2) := by
    cases hb : s.net.corr with
    | none => rfl
    | some c => simp [hc _ (hs.corr c hb).1, hc _ (hs.corr c hb).2.1]
  unfold RNet.view
  rw [e1, e2]

theorem Heap.alloc_keeps (h : Heap K) (M : Mat K) : ∀ a < h.next, (h.alloc M).cell a = h.cell a :=
  fun _ ha => Heap.alloc_old _ _ ha.ne

theorem RState.ensureCorr_spec (s : RState K) (hs : s.Sound) :
    s.Step s.ensureCorr.1 ∧ s.ensureCorr.1.Sound ∧ s.ensureCorr.1.net.base = s.net.base ∧ s.ensureCorr.1.net.B = s.net.B ∧
    s.ensureCorr.1.net.corr = some s.ensureCorr.2 ∧ (∀ a < s.heap.next, s.ensureCorr.1.heap.cell a = s.heap.cell a) ∧
    (s.ensureCorr.1.heap.cell s.ensureCorr.2.1, s.ensureCorr.1.heap.cell s.ensureCorr.2.2) =
      (match s.net.corr with
        | none => (Mat.diag (s.net.base.L.getD 0) s.net.base.norm, Mat.zeros (s.net.base.L.getD 0) s.net.base.outputs)
        | some c => (s.heap.cell c.1, s.heap.cell c.2)) := by
  unfold RState.ensureCorr
  cases hc : s.net.corr with
  | some c => exact ⟨RState.Step.refl s, hs, rfl, rfl, hc, fun _ _ => rfl, rfl⟩
  | none =>
    simp only
    have hold : ∀ a < s.heap.next, (((s.heap.alloc (Mat.zeros (s.net.base.L.getD 0) (s.net.base.L.getD 0))).alloc
        (Mat.zeros (s.net.base.L.getD 0) s.net.base.outputs)).set s.heap.next
          (Mat.diag (s.net.base.L.getD 0) s.net.base.norm)).cell a = s.heap.cell a := fun a ha => by
      rw [Heap.set_other _ _ ha.ne, Heap.alloc_old _ _ (by simp; omega), Heap.alloc_old _ _ ha.ne]
    refine ⟨⟨by simp; omega, fun a ha _ => hold a ha, ?_, fun _ _ h => h⟩, ⟨?_, ?_⟩, by trivial, by trivial, by trivial, hold, ?_⟩
    · rintro a ha ⟨c, h, h'⟩
      injection h with h; subst h
      simp only [Heap.alloc_next] at h'; omega
    · intro c h
      injection h with h; subst h
      simp; omega
    · intro b hb
      have := (hs.B b hb).1
      refine ⟨by simp; omega, fun c h => ?_⟩
      injection h with h; subst h
      simp only [Heap.alloc_next]; omega
    · rw [Heap.set_same, Heap.set_other _ _ (by simp)]
      exact congrArg₂ _ rfl (Heap.alloc_new (s.heap.alloc _) _)

/-- Update of `HH`: `HT` and all arrays that are not accumulators are kept. -/
theorem RState.growHH_spec (s : RState K) (hs : s.Sound) (c : Nat × Nat) (hc : s.net.corr = some c) (aH : Nat) :
    s.Step (s.growHH c aH) ∧ (s.growHH c aH).Sound ∧ (s.growHH c aH).net.base = s.net.base ∧ (s.growHH c aH).net.B = s.net.B ∧
    ∃ c', (s.growHH c aH).net.corr = some (c', c.2) ∧ (s.growHH c aH).heap.cell c.2 = s.heap.cell c.2 ∧
      (s.growHH c aH).heap.cell c' = s.net.base.updHH (s.heap.cell c.1) (s.heap.cell aH) := by
  obtain ⟨h1, h2, h12⟩ := hs.corr c hc
  unfold RState.growHH
  cases hsol : s.net.base.solver with
  | python =>
    simp only
    refine ⟨⟨by simp, fun a ha _ => Heap.alloc_keeps _ _ a ha, ?_, fun _ _ h => h⟩, ⟨?_, ?_⟩, by trivial, by trivial, s.heap.next, rfl,
      Heap.alloc_keeps _ _ _ h2, Heap.alloc_new _ _⟩
    · rintro a ha ⟨c', h, h'⟩
      injection h with h; subst h
      exact ⟨c, hc, h'.elim (fun h => absurd h ha.ne) .inr⟩
    · intro c' h
      injection h with h; subst h
      exact ⟨by simp, by simp; omega, by simp only; omega⟩
    · intro b hb
      have := hs.B b hb
      refine ⟨by simp; omega, fun c' h => ?_⟩
      injection h with h; subst h
      exact ⟨this.1.ne, (this.2 c hc).2⟩
  | basic =>
    refine ⟨⟨le_rfl, fun a _ hn => ?_, fun _ _ h => h, fun _ _ h => h⟩, hs.heap le_rfl, rfl, rfl, c.1, hc,
      Heap.set_other _ _ (Ne.symm h12), Heap.set_same _ _ _⟩
    exact Heap.set_other _ _ fun e => hn ⟨c, hc, .inl e⟩
  | cuda =>
    refine ⟨⟨le_rfl, fun a _ hn => ?_, fun _ _ h => h, fun _ _ h => h⟩, hs.heap le_rfl, rfl, rfl, c.1, hc,
      Heap.set_other _ _ (Ne.symm h12), Heap.set_same _ _ _⟩
    exact Heap.set_other _ _ fun e => hn ⟨c, hc, .inl e⟩

/-- Update of `HT`. -/
theorem RState.growHT_spec (s : RState K) (hs : s.Sound) (c : Nat × Nat) (hc : s.net.corr = some c) (aH aT : Nat) :
    match s.growHT c.2 aH aT with
    | none => (s.heap.cell aH).nrows ≠ (s.heap.cell aT).nrows ∨
        s.net.base.addHT (s.heap.cell c.2) ((s.heap.cell aH).tmul (s.heap.cell aT)) = none
    | some s' => (s.heap.cell aH).nrows = (s.heap.cell aT).nrows ∧ s.Step s' ∧ s'.Sound ∧ s'.net = s.net ∧
        s'.heap.cell c.1 = s.heap.cell c.1 ∧
        s.net.base.addHT (s.heap.cell c.2) ((s.heap.cell aH).tmul (s.heap.cell aT)) = some (s'.heap.cell c.2) := by
  obtain ⟨h1, h2, h12⟩ := hs.corr c hc
  unfold RState.growHT
  by_cases hr : (s.heap.cell aH).nrows = (s.heap.cell aT).nrows
  · rw [if_neg (not_not.mpr hr)]
    cases ha : s.net.base.addHT (s.heap.cell c.2) ((s.heap.cell aH).tmul (s.heap.cell aT)) with
    | none => exact .inr rfl
    | some M =>
      refine ⟨hr, ⟨le_rfl, fun a _ hn => Heap.set_other _ _ fun e => hn ⟨c, hc, .inr e⟩, fun _ _ h => h, fun _ _ h => h⟩,
        hs.heap le_rfl, rfl, Heap.set_other _ _ h12, ?_⟩
      rw [Heap.set_same]
  · rw [if_pos hr]; exact .inl hr

theorem RNet.view_eq (r : RNet K) (h : Heap K) (n : NNet K) (b : NNet K) (hb : r.base = b)
    (hn : n = { b with corr := r.corr.map fun c => (h.cell c.1, h.cell c.2), B := r.B.map h.cell }) : r.view h = n := by
  subst hb; exact hn.symm

/-- `add_batch` on values after projection and weighting. -/
theorem NNet.addBatchS_of (env : Env K) (n : NNet K) (X T : Mat K) (wc : Option (List K)) {H H' T' : Mat K}
    (hp : n.project env X = .ok H) (hw : weighted env n.prec wc H (T.map (env.cast n.prec)) = .ok (H', T')) (c : Mat K × Mat K)
    (hc : n.corr.getD (Mat.diag (n.L.getD 0) n.norm, Mat.zeros (n.L.getD 0) n.outputs) = c) :
    n.addBatchS env X T wc =
      (if H'.cols ≠ c.1.cols then ({ n with corr := some c }, .error .valueError)
       else
        let n2 := if n.solver = .cuda then { n with corr := some c } else { n with corr := some (n.updHH c.1 H', c.2) }
        if H'.nrows ≠ T'.nrows then (n2, .error .valueError)
        else match n.addHT c.2 (H'.tmul T') with
          | none => (n2, .error .valueError)
          | some HT => ({ n with corr := some (n.updHH c.1 H', HT) }, .ok ())) := by
  unfold NNet.addBatchS
  subst hc
  cases n.corr <;> simp only [hp, hw, Option.getD_none, Option.getD_some] <;> rfl

/-- What is known about a step: it follows the discipline, keeps the references sound, and acts as the call on values does. -/
structure RState.Refines (s s' : RState K) (n' : NNet K) : Prop where
  step : s.Step s'
  sound : s'.Sound
  view : s'.net.view s'.heap = n'

theorem RState.addBatch_spec (env : Env K) (s : RState K) (hs : s.Sound) (aX aT : Nat) (hT : aT < s.heap.next)
    (wc : Option (List K)) :
    s.Refines (s.addBatch env aX aT wc).1 ((s.net.view s.heap).addBatchS env (s.heap.cell aX) (s.heap.cell aT) wc).1 ∧
    (s.addBatch env aX aT wc).2 = ((s.net.view s.heap).addBatchS env (s.heap.cell aX) (s.heap.cell aT) wc).2 := by
  obtain ⟨hnext, hkeep, hres⟩ := RNet.batchArrays_spec env s.net s.heap aX aT wc hT
  unfold RState.addBatch
  generalize hba : s.net.batchArrays env s.heap aX aT wc = q at hnext hkeep hres
  obtain ⟨h, res⟩ := q
  simp only at hnext hkeep hres
  have hs0 : ({ s with heap := h } : RState K).Sound := hs.heap hnext
  have hst0 : s.Step { s with heap := h } := RState.Step.ofHeap hnext hkeep
  have hv0 : s.net.view h = s.net.view s.heap := RState.view_heap hs hkeep
  have hproj : (s.net.view s.heap).project env (s.heap.cell aX) = s.net.base.project env (s.heap.cell aX) := rfl
  have hprec : (s.net.view s.heap).prec = s.net.base.prec := rfl
  cases hp : s.net.base.project env (s.heap.cell aX) with
  | error x =>
    rw [hp] at hres; simp only at hres; subst hres
    simp only [NNet.addBatchS, hproj, hp]
    exact ⟨⟨hst0, hs0, hv0⟩, by trivial⟩
  | ok H =>
    rw [hp] at hres; simp only at hres
    simp only
    cases hw : weighted env s.net.base.prec wc H ((s.heap.cell aT).map (env.cast s.net.base.prec)) with
    | error x =>
      rw [hw] at hres; simp only at hres; subst hres
      simp only [NNet.addBatchS, hproj, hp, hprec, hw]
      exact ⟨⟨hst0, hs0, hv0⟩, by trivial⟩
    | ok p =>
      obtain ⟨H', T'⟩ := p
      rw [hw] at hres; simp only at hres
      obtain ⟨aH, aT', rfl, hH1, hT1, hHT, hH2, hT2, hcH, hcT⟩ := hres
      simp only
      obtain ⟨e1, e2, e3, e3b, e4, e5, e6⟩ := RState.ensureCorr_spec { s with heap := h } hs0
      generalize hec : ({ s with heap := h } : RState K).ensureCorr = q at e1 e2 e3 e3b e4 e5 e6
      obtain ⟨s1, c⟩ := q
      simp only at e1 e2 e3 e3b e4 e5 e6 hH2 hT2
      -- local arrays are not accumulators
      have nH : ¬ Spec.Accumulates s1.net aH := fun h => not_acc_new hs hH1 (e1.acc aH hH2 h)
      have nT : ¬ Spec.Accumulates s1.net aT' := fun h => not_acc_new hs hT1 (e1.acc aT' hT2 h)
      have cH : s1.heap.cell aH = H' := (e5 aH hH2).trans hcH
      have cT : s1.heap.cell aT' = T' := (e5 aT' hT2).trans hcT
      have hc' : (s.net.view s.heap).corr.getD (Mat.diag ((s.net.view s.heap).L.getD 0) (s.net.view s.heap).norm,
              Mat.zeros ((s.net.view s.heap).L.getD 0) (s.net.view s.heap).outputs) = (s1.heap.cell c.1, s1.heap.cell c.2) := by
        rw [e6, ← hv0]
        cases hcc : s.net.corr with
        | none => simp [RNet.view, hcc]
        | some c => simp [RNet.view, hcc]
      rw [NNet.addBatchS_of env (s.net.view s.heap) (s.heap.cell aX) (s.heap.cell aT) wc (hproj.trans hp)
        (by rw [hprec]; exact hw) _ hc']
      have hstep1 : s.Step s1 := hst0.trans e1
      have hBkeep : ∀ (t : RState K), s.Step t → t.net.B = s.net.B → t.net.B.map t.heap.cell = s.net.B.map s.heap.cell := by
        intro t ht hB
        rw [hB]
        cases hb : s.net.B with
        | none => rfl
        | some b =>
          have := hs.B b hb
          refine congrArg some (ht.cell b this.1 ?_)
          rintro ⟨c, hc, h⟩
          have := this.2 c hc
          exact h.elim this.1 this.2
      have hview : ∀ (t : RState K) (c' : Nat × Nat), s.Step t → t.net.B = s.net.B → t.net.base = s.net.base →
          t.net.corr = some c' →
          t.net.view t.heap = { s.net.view s.heap with corr := some (t.heap.cell c'.1, t.heap.cell c'.2) } := by
        intro t c' ht hB hbase hcorr
        unfold RNet.view
        rw [hBkeep t ht hB, hcorr, hbase]
        rfl
      simp only [cH]
      by_cases hcol : H'.cols = (s1.heap.cell c.1).cols
      swap
      · rw [if_pos hcol, if_pos hcol]
        exact ⟨⟨hstep1, e2, hview s1 c hstep1 e3b e3 e4⟩, rfl⟩
      rw [if_neg (not_not.mpr hcol), if_neg (not_not.mpr hcol)]
      have hsolv : (s.net.view s.heap).solver = s.net.base.solver := rfl
      rw [hsolv]
      by_cases hcu : s.net.base.solver = .cuda
      · rw [if_pos hcu, if_pos hcu]
        have g := RState.growHT_spec s1 e2 c e4 aH aT'
        cases hg : s1.growHT c.2 aH aT' with
        | none =>
          rw [hg] at g; simp only [cH, cT] at g
          simp only
          by_cases hr : H'.nrows = T'.nrows
          · have g' : (s.net.view s.heap).addHT (s1.heap.cell c.2) (H'.tmul T') = none := by
              rw [← g.resolve_left (not_not.mpr hr), e3]; rfl
            rw [if_neg (not_not.mpr hr), g']
            exact ⟨⟨hstep1, e2, hview s1 c hstep1 e3b e3 e4⟩, rfl⟩
          · rw [if_pos hr]
            exact ⟨⟨hstep1, e2, hview s1 c hstep1 e3b e3 e4⟩, rfl⟩
        | some s2 =>
          rw [hg] at g; simp only [cH, cT] at g
          obtain ⟨g1, g2, g3, g4, g5, g6⟩ := g
          simp only
          rw [if_neg (not_not.mpr g1)]
          have g6' : (s.net.view s.heap).addHT (s1.heap.cell c.2) (H'.tmul T') = some (s2.heap.cell c.2) := by rw [← g6, e3]; rfl
          rw [g6']
          have cH2 : s2.heap.cell aH = H' := (g2.cell aH (hH2.trans_le e1.next) nH).trans cH
          obtain ⟨k1, k2, k3, k4, c1, k5, k6, k7⟩ := RState.growHH_spec s2 g3 c (by rw [g4, e4]) aH
          have hst := (hstep1.trans g2).trans k1
          refine ⟨⟨hst, k2, ?_⟩, rfl⟩
          rw [hview _ (c1, c.2) hst (by rw [k4, g4, e3b]) (by rw [k3, g4, e3]) k5]
          simp only [k6, k7, cH2, g5, g4, e3]
          rfl
      · rw [if_neg hcu, if_neg hcu]
        obtain ⟨k1, k2, k3, k4, c1, k5, k6, k7⟩ := RState.growHH_spec s1 e2 c e4 aH
        have g := RState.growHT_spec (s1.growHH c aH) k2 (c1, c.2) k5 aH aT'
        have cH2 : (s1.growHH c aH).heap.cell aH = H' := (k1.cell aH (hH2.trans_le e1.next) nH).trans cH
        have cT2 : (s1.growHH c aH).heap.cell aT' = T' := (k1.cell aT' (hT2.trans_le e1.next) nT).trans cT
        have hstep2 := hstep1.trans k1
        have hv2 := hview _ (c1, c.2) hstep2 (by rw [k4, e3b]) (by rw [k3, e3]) k5
        have hupd : s1.net.base.updHH (s1.heap.cell c.1) H' = (s.net.view s.heap).updHH (s1.heap.cell c.1) H' := by rw [e3]; rfl
        simp only [k6, k7, cH, hupd] at hv2
        cases hg : (s1.growHH c aH).growHT c.2 aH aT' with
        | none =>
          rw [hg] at g; simp only [cH2, cT2, k6] at g
          simp only
          by_cases hr : H'.nrows = T'.nrows
          · have g' : (s.net.view s.heap).addHT (s1.heap.cell c.2) (H'.tmul T') = none := by
              rw [← g.resolve_left (not_not.mpr hr), k3, e3]; rfl
            rw [if_neg (not_not.mpr hr), g']
            exact ⟨⟨hstep2, k2, hv2⟩, rfl⟩
          · rw [if_pos hr]
            exact ⟨⟨hstep2, k2, hv2⟩, rfl⟩
        | some s3 =>
          rw [hg] at g; simp only [cH2, cT2, k6] at g
          obtain ⟨g1, g2, g3, g4, g5, g6⟩ := g
          simp only
          have g6' : (s.net.view s.heap).addHT (s1.heap.cell c.2) (H'.tmul T') = some (s3.heap.cell c.2) := by
            rw [← g6, k3, e3]; rfl
          rw [if_neg (not_not.mpr g1), g6']
          have hst := hstep2.trans g2
          refine ⟨⟨hst, g3, ?_⟩, rfl⟩
          rw [hview s3 (c1, c.2) hst (by rw [g4, k4, e3b]) (by rw [g4, k3, e3]) (by rw [g4, k5])]
          simp only [g5, k7, cH, hupd]
          rfl

theorem RState.Sound.start (n : NNet K) : (RState.start n).Sound := ⟨fun _ h => by simp [RState.start] at h, fun _ h => by simp [RState.start] at h⟩

theorem RState.alloc_refines (s : RState K) (hs : s.Sound) (M : Mat K) :
    s.Refines { s with heap := s.heap.alloc M } (s.net.view s.heap) :=
  ⟨RState.Step.ofHeap (by simp) (Heap.alloc_keeps _ _), hs.heap (by simp), RState.view_heap hs (Heap.alloc_keeps _ _)⟩

theorem RState.alloc2_refines (s : RState K) (hs : s.Sound) (M N : Mat K) :
    s.Refines { s with heap := (s.heap.alloc M).alloc N } (s.net.view s.heap) := by
  have h : ∀ a < s.heap.next, ((s.heap.alloc M).alloc N).cell a = s.heap.cell a := fun a ha => by
    rw [Heap.alloc_old _ _ (by simp; omega), Heap.alloc_old _ _ ha.ne]
  exact ⟨RState.Step.ofHeap (by simp; omega) h, hs.heap (by simp; omega), RState.view_heap hs h⟩

theorem RState.Refines.refl (s : RState K) (hs : s.Sound) : s.Refines s (s.net.view s.heap) := ⟨RState.Step.refl s, hs, rfl⟩

/-- The network gives up its references. -/
theorem RState.Sound.drop {s : RState K} (hs : s.Sound) (b : NNet K) :
    ({ s with net := { s.net with base := b, corr := none } } : RState K).Sound ∧
    ({ s with net := { base := b, corr := none, B := none } } : RState K).Sound :=
  ⟨⟨fun _ h => by simp at h, fun x h => ⟨(hs.B x h).1, fun _ h => by simp at h⟩⟩,
   ⟨fun _ h => by simp at h, fun _ h => by simp at h⟩⟩

theorem RState.getCorr_spec (s : RState K) (hs : s.Sound) :
    s.Refines s.getCorr.1 (s.net.view s.heap) ∧ s.getCorr.1.net = s.net ∧
    s.getCorr.2.map (List.map s.getCorr.1.heap.cell) =
      ((s.net.view s.heap).getCorr.map fun r => match r with
        | none => []
        | some c => [c.1, c.2]) ∧
    ∀ l, s.getCorr.2 = .ok l → ∀ a ∈ l, a < s.getCorr.1.heap.next := by
  unfold RState.getCorr NNet.getCorr
  have hsolv : (s.net.view s.heap).solver = s.net.base.solver := rfl
  have hcorr : (s.net.view s.heap).corr = s.net.corr.map fun c => (s.heap.cell c.1, s.heap.cell c.2) := rfl
  rw [hsolv, hcorr]
  cases s.net.base.solver <;> cases hc : s.net.corr with
  | none => 
    refine ⟨RState.Refines.refl s hs, rfl, rfl, ?_⟩
    intro l hl; cases hl <;> simp
  | some c =>
    first
    | refine ⟨RState.Refines.refl s hs, rfl, rfl, ?_⟩
      intro l hl; cases hl
      have := hs.corr c hc
      simp; omega
    | refine ⟨RState.alloc_refines s hs _, rfl, ?_, ?_⟩
      · simp only [Except.map, List.map, Option.map, Heap.alloc_new, Heap.alloc_keeps _ _ _ (hs.corr c hc).2.1]
      · intro l hl; cases hl
        have := hs.corr c hc
        simp; omega
    | refine ⟨RState.alloc2_refines s hs _ _, rfl, ?_, ?_⟩
      · have e : ((s.heap.alloc ((triu (s.heap.cell c.1)).add (triu1T (s.heap.cell c.1)))).alloc (s.heap.cell c.2)).cell s.heap.next
            = (triu (s.heap.cell c.1)).add (triu1T (s.heap.cell c.1)) := by
          rw [Heap.alloc_old _ _ (by simp), Heap.alloc_new]
        simp only [Except.map, List.map, Option.map, Heap.alloc_new, e]
      · intro l hl; cases hl
        simp; omega

/-- Replacing `B` by a new array. -/
theorem RState.newB_refines (s : RState K) (hs : s.Sound) (M : Mat K) :
    s.Refines { heap := s.heap.alloc M, net := { s.net with B := some s.heap.next } } { s.net.view s.heap with B := some M } := by
  refine ⟨⟨by simp, fun a ha _ => Heap.alloc_keeps _ _ a ha, fun _ _ h => h, ?_⟩, ⟨?_, ?_⟩, ?_⟩
  · intro a ha h
    injection h with h; omega
  · intro c' h
    have := hs.corr c' h
    simp only [Heap.alloc_next]; exact ⟨by omega, by omega, this.2.2⟩
  · intro b hb
    injection hb with hb; subst hb
    refine ⟨by simp, fun c' h => ?_⟩
    have := hs.corr c' h
    omega
  · have h := (RState.alloc_refines s hs M).view
    unfold RNet.view at h ⊢
    have h2 := congrArg NNet.corr h
    simp only at h2
    simp only [h2, Option.map_some, Heap.alloc_new]

/-- Replacing `HH` and `HT` by new arrays. -/
theorem RState.newCorr_refines (s : RState K) (hs : s.Sound) (M N : Mat K) :
    s.Refines { heap := (s.heap.alloc M).alloc N, net := { s.net with corr := some (s.heap.next, (s.heap.alloc M).next) } }
      { s.net.view s.heap with corr := some (M, N) } := by
  have hk := (RState.alloc2_refines s hs M N).step.cell
  have hk' : ∀ a < s.heap.next, ((s.heap.alloc M).alloc N).cell a = s.heap.cell a := fun a ha => by
    rw [Heap.alloc_old _ _ (by simp; omega), Heap.alloc_old _ _ ha.ne]
  refine ⟨⟨by simp; omega, fun a ha _ => hk' a ha, ?_, fun _ _ h => h⟩, ⟨?_, ?_⟩, ?_⟩
  · rintro a ha ⟨c, h, h'⟩
    injection h with h; subst h
    simp only [Heap.alloc_next] at h'; omega
  · intro c' h
    injection h with h; subst h
    simp; omega
  · intro b hb
    have := (hs.B b hb).1
    refine ⟨by simp; omega, fun c' h => ?_⟩
    injection h with h; subst h
    simp only [Heap.alloc_next]; omega
  · have h := (RState.alloc2_refines s hs M N).view
    have e1 : ((s.heap.alloc M).alloc N).cell s.heap.next = M := by
      rw [Heap.alloc_old _ _ (by simp), Heap.alloc_new]
    unfold RNet.view at h ⊢
    have h2 := congrArg NNet.B h
    simp only at h2
    simp only [h2, Option.map_some, Heap.alloc_new, e1]

theorem RState.storeCorr_spec {env : Env K} (s : RState K) (hs : s.Sound) :
    s.Refines s.storeCorr.1 (Spec.valueCall env s.heap.cell (s.net.view s.heap) .storeCorr).1 ∧
    s.storeCorr.2.map (List.map s.storeCorr.1.heap.cell) = (Spec.valueCall env s.heap.cell (s.net.view s.heap) .storeCorr).2 ∧
    ∀ l, s.storeCorr.2 = .ok l → ∀ a ∈ l, a < s.storeCorr.1.heap.next := by
  unfold RState.storeCorr RState.getCorr Spec.valueCall NNet.getCorr
  have hsolv : (s.net.view s.heap).solver = s.net.base.solver := rfl
  have hcorr : (s.net.view s.heap).corr = s.net.corr.map fun c => (s.heap.cell c.1, s.heap.cell c.2) := rfl
  simp only [hsolv, hcorr]
  cases hc : s.net.corr with
  | none =>
    cases hsl : s.net.base.solver <;>
    exact ⟨RState.Refines.refl s hs, rfl, fun l hl => by cases hl⟩
  | some c =>
    obtain ⟨h1, h2, h12⟩ := hs.corr c hc
    cases hsl : s.net.base.solver with
    | basic =>
      have eo : (s.heap.set c.1 (subDiag (s.heap.cell c.1) s.net.base.norm)).cell c.2 = s.heap.cell c.2 :=
        Heap.set_other _ _ (Ne.symm h12)
      refine ⟨⟨⟨le_rfl, fun a _ hn => Heap.set_other _ _ fun e => hn ⟨c, hc, .inl e⟩, fun _ _ h => h, fun _ _ h => h⟩,
        hs.heap le_rfl, ?_⟩, ?_, ?_⟩
      · have e1 : s.net.B.map (s.heap.set c.1 (subDiag (s.heap.cell c.1) s.net.base.norm)).cell = s.net.B.map s.heap.cell := by
          cases hb : s.net.B with
          | none => rfl
          | some b => exact congrArg some (Heap.set_other _ _ ((hs.B b hb).2 c hc).1)
        simp only [Option.map, if_true]
        unfold RNet.view
        rw [e1, hc]
        simp only [Option.map, Heap.set_same, eo]
        rw [hsl]
      · simp only [Except.map, List.map, Option.map, Heap.set_same, eo]
        rfl
      · intro l hl; cases hl
        simp; exact ⟨h1, h2⟩
    | python =>
      have hk : ∀ M N : Mat K, ∀ a < s.heap.next, ((s.heap.alloc M).set s.heap.next N).cell a = s.heap.cell a := fun M N a ha => by
        rw [Heap.set_other _ _ ha.ne, Heap.alloc_old _ _ ha.ne]
      refine ⟨⟨RState.Step.ofHeap (by simp) (hk _ _), hs.heap (by simp), RState.view_heap hs (hk _ _)⟩, ?_, ?_⟩
      · simp only [Except.map, List.map, Option.map, Heap.set_same, Heap.alloc_new, hk _ _ _ h2]
        rfl
      · intro l hl; cases hl
        simp; omega
    | cuda =>
      have hk : ∀ M N P : Mat K, ∀ a < s.heap.next, (((s.heap.alloc M).alloc P).set s.heap.next N).cell a = s.heap.cell a :=
        fun M N P a ha => by
          rw [Heap.set_other _ _ ha.ne, Heap.alloc_old _ _ (by simp; omega), Heap.alloc_old _ _ ha.ne]
      refine ⟨⟨RState.Step.ofHeap (by simp; omega) (hk _ _ _), hs.heap (by simp; omega), RState.view_heap hs (hk _ _ _)⟩, ?_, ?_⟩
      · have e1 : ∀ M N : Mat K, ((s.heap.alloc M).alloc N).cell s.heap.next = M := fun M N => by
          rw [Heap.alloc_old _ _ (by simp), Heap.alloc_new]
        have e2 : ∀ M N P : Mat K, (((s.heap.alloc M).alloc P).set s.heap.next N).cell (s.heap.next + 1) = P := fun M N P => by
          rw [Heap.set_other _ _ (by omega)]
          exact Heap.alloc_new (s.heap.alloc M) P
        simp only [Except.map, List.map, Option.map, Heap.set_same, Heap.alloc_next, e1, e2]
        rfl
      · intro l hl; cases hl
        simp; omega

/-- Writing into an array the model does not hold does not change it. -/
theorem RState.write_view (s : RState K) (a : Nat) (M : Mat K) (ha : ¬ Spec.Keeps s.net a) :
    s.net.view (s.heap.set a M) = s.net.view s.heap := by
  have e1 : s.net.B.map (s.heap.set a M).cell = s.net.B.map s.heap.cell := by
    cases hb : s.net.B with
    | none => rfl
    | some b => exact congrArg some (Heap.set_other _ _ fun e => ha (.inr (by rw [hb, e])))
  have e2 : (s.net.corr.map fun c => ((s.heap.set a M).cell c.1, (s.heap.set a M).cell c.2)) =
      s.net.corr.map fun c => (s.heap.cell c.1, s.heap.cell c.2) := by
    cases hb : s.net.corr with
    | none => rfl
    | some c =>
      exact congrArg some (congrArg₂ _ (Heap.set_other _ _ fun e => ha (.inl ⟨c, hb, .inl e.symm⟩))
        (Heap.set_other _ _ fun e => ha (.inl ⟨c, hb, .inr e.symm⟩)))
  unfold RNet.view
  rw [e1, e2]

theorem NNet.setCorr_cases (env : Env K) (n n' : NNet K) (HH HT : Mat K) (hL : n.L = n'.L) (ho : n.outputs = n'.outputs) :
    (∃ x, n.setCorr env HH HT = .error x ∧ n'.setCorr env HH HT = .error x) ∨
    (n.setCorr env HH HT = .ok { n with corr := some (HH.map (env.cast n.prec), HT.map (env.cast n.prec)) } ∧
     n'.setCorr env HH HT = .ok { n' with corr := some (HH.map (env.cast n'.prec), HT.map (env.cast n'.prec)) }) := by
  unfold NNet.setCorr pyAssert
  rw [hL, ho]
  generalize decide (HH.nrows = HH.cols) = b1
  generalize decide (some HH.nrows = n'.L) = b2
  generalize decide (HH.nrows = HT.nrows) = b3
  generalize decide (HT.cols = n'.outputs) = b4
  cases b1 <;> cases b2 <;> cases b3 <;> cases b4 <;> simp [bind, Except.bind, pure, Except.pure]

theorem NNet.setB_cases (env : Env K) (n n' : NNet K) (B : Mat K) (hL : n.L = n'.L) (ho : n.outputs = n'.outputs) :
    (∃ x, n.setB env B = .error x ∧ n'.setB env B = .error x) ∨
    (n.setB env B = .ok { n with B := some (B.map (env.cast n.prec)) } ∧
     n'.setB env B = .ok { n' with B := some (B.map (env.cast n'.prec)) }) := by
  unfold NNet.setB pyAssert
  rw [hL, ho]
  by_cases h2 : some B.nrows = n'.L <;>
    by_cases h4 : B.cols = n'.outputs <;> simp [h2, h4, bind, Except.bind, pure, Except.pure]

/-- Library calls. -/
theorem RState.call_spec (env : Env K) (s : RState K) (hs : s.Sound) (op : ArrOp K) (hu : ∀ a ∈ Spec.uses op, a < s.heap.next)
    (hw : ∀ a, ¬ Spec.Writes a op) :
    s.Refines (s.step env op).1 (Spec.valueCall env s.heap.cell (s.net.view s.heap) op).1 ∧
    (s.step env op).2.map (List.map (s.step env op).1.heap.cell) = (Spec.valueCall env s.heap.cell (s.net.view s.heap) op).2 ∧
    ∀ l, (s.step env op).2 = .ok l → ∀ a ∈ l, a < (s.step env op).1.heap.next := by
  have hproj : ∀ X, (s.net.view s.heap).project env X = s.net.base.project env X := fun _ => rfl
  cases op with
  | create M =>
    refine ⟨RState.alloc_refines s hs M, ?_, ?_⟩
    · simp [RState.step, Except.map, Spec.valueCall, Heap.alloc_new]
    · intro l hl; cases hl; simp [RState.step]
  | write a M => exact absurd rfl (hw a)
  | addNeurons number func W B =>
    refine ⟨⟨⟨le_rfl, fun _ _ _ => rfl, ?_, ?_⟩, hs.drop _ |>.2, rfl⟩, rfl, ?_⟩
    · rintro a _ ⟨c, h, _⟩; cases h
    · intro a _ h; cases h
    · intro l hl; cases hl; simp
  | prune idx =>
    refine ⟨⟨⟨le_rfl, fun _ _ _ => rfl, ?_, ?_⟩, hs.drop _ |>.2, rfl⟩, rfl, ?_⟩
    · rintro a _ ⟨c, h, _⟩; cases h
    · intro a _ h; cases h
    · intro l hl; cases hl; simp
  | reset =>
    refine ⟨⟨⟨le_rfl, fun _ _ _ => rfl, ?_, fun _ _ h => h⟩, hs.drop _ |>.1, rfl⟩, rfl, ?_⟩
    · rintro a _ ⟨c, h, _⟩; cases h
    · intro l hl; cases hl; simp
  | addBatch aX aT wc =>
    have h := RState.addBatch_spec env s hs aX aT (hu aT (by simp [Spec.uses])) wc
    simp only [RState.step, Spec.valueCall]
    rw [← h.2]
    generalize s.addBatch env aX aT wc = q at h
    obtain ⟨s', r⟩ := q
    cases r with
    | ok u => exact ⟨h.1, rfl, fun l hl => by cases hl; simp⟩
    | error x => exact ⟨h.1, rfl, fun l hl => by cases hl⟩
  | solve =>
    cases hc : s.net.corr with
    | none =>
      have e1 : s.step env .solve = (s, .error .typeError) := by simp [RState.step, RState.solve, hc, noArrays]
      have e2 : Spec.valueCall env s.heap.cell (s.net.view s.heap) .solve = (s.net.view s.heap, .error .typeError) := by
        simp [Spec.valueCall, NNet.solve, RNet.view, hc]
      rw [e1, e2]
      exact ⟨RState.Refines.refl s hs, rfl, fun l hl => by cases hl⟩
    | some c =>
      have e1 : s.step env .solve = (RState.mk (s.heap.alloc (s.net.base.solveCorr env (s.heap.cell c.1) (s.heap.cell c.2)))
          { s.net with B := some s.heap.next }, .ok []) := by simp [RState.step, RState.solve, hc, noArrays]
      have e2 : Spec.valueCall env s.heap.cell (s.net.view s.heap) .solve = ({ s.net.view s.heap with
          B := some (s.net.base.solveCorr env (s.heap.cell c.1) (s.heap.cell c.2)) }, .ok []) := by
        simp [Spec.valueCall, NNet.solve, RNet.view, hc]; rfl
      rw [e1, e2]
      exact ⟨RState.newB_refines s hs _, rfl, fun l hl => by cases hl; simp⟩
  | getCorr =>
    obtain ⟨h1, h2, h3, h4⟩ := RState.getCorr_spec s hs
    exact ⟨h1, h3, h4⟩
  | setCorr aHH aHT =>
    simp only [RState.step, Spec.valueCall, RState.setCorr]
    rcases NNet.setCorr_cases env s.net.base (s.net.view s.heap) (s.heap.cell aHH) (s.heap.cell aHT) rfl rfl with
      ⟨x, h1, h2⟩ | ⟨h1, h2⟩
    · rw [h1, h2]
      exact ⟨RState.Refines.refl s hs, rfl, fun l hl => by cases hl⟩
    · rw [h1, h2]
      exact ⟨RState.newCorr_refines s hs _ _, rfl, fun l hl => by cases hl; simp⟩
  | getB =>
    simp only [RState.step, Spec.valueCall, RState.getB, NNet.getB]
    have hB : (s.net.view s.heap).B = s.net.B.map s.heap.cell := rfl
    rw [hB]
    cases hb : s.net.B with
    | none => exact ⟨RState.Refines.refl s hs, rfl, fun l hl => by cases hl; simp⟩
    | some b =>
      have := (hs.B b hb).1
      cases s.net.base.solver with
      | cuda =>
        refine ⟨RState.alloc_refines s hs _, ?_, fun l hl => by cases hl; simp⟩
        simp only [Except.map, List.map, Heap.alloc_new]; rfl
      | basic => exact ⟨RState.Refines.refl s hs, rfl, fun l hl => by cases hl; simpa using this⟩
      | python => exact ⟨RState.Refines.refl s hs, rfl, fun l hl => by cases hl; simpa using this⟩
  | setB aB =>
    simp only [RState.step, Spec.valueCall, RState.setB]
    rcases NNet.setB_cases env s.net.base (s.net.view s.heap) (s.heap.cell aB) rfl rfl with ⟨x, h1, h2⟩ | ⟨h1, h2⟩
    · rw [h1, h2]
      exact ⟨RState.Refines.refl s hs, rfl, fun l hl => by cases hl⟩
    · rw [h1, h2]
      exact ⟨RState.newB_refines s hs _, rfl, fun l hl => by cases hl; simp⟩
  | project aX =>
    simp only [RState.step, Spec.valueCall, RState.project, hproj]
    cases s.net.base.project env (s.heap.cell aX) with
    | error x => exact ⟨RState.Refines.refl s hs, rfl, fun l hl => by cases hl⟩
    | ok H =>
      refine ⟨RState.alloc_refines s hs _, ?_, fun l hl => by cases hl; simp⟩
      simp only [Except.map, List.map, Heap.alloc_new]
  | predict aX =>
    simp only [RState.step, Spec.valueCall, RState.predict, NNet.predict, hproj]
    have hB : (s.net.view s.heap).B = s.net.B.map s.heap.cell := rfl
    rw [hB]
    cases hb : s.net.B with
    | none => exact ⟨RState.Refines.refl s hs, rfl, fun l hl => by cases hl⟩
    | some b =>
      have hb' := (hs.B b hb).1
      simp only [Option.map]
      cases s.net.base.project env (s.heap.cell aX) with
      | error x => exact ⟨RState.Refines.refl s hs, rfl, fun l hl => by cases hl⟩
      | ok H =>
        simp only [Heap.alloc_new, Heap.alloc_keeps _ _ _ hb', bind, Except.bind]
        by_cases hc : H.cols = (s.heap.cell b).nrows
        · rw [if_neg (not_not.mpr hc), if_neg (not_not.mpr hc)]
          refine ⟨RState.alloc2_refines s hs _ _, ?_, fun l hl => by cases hl; simp⟩
          simp only [Except.map, List.map, pure, Except.pure]
          exact congrArg (fun M => Except.ok [M]) (Heap.alloc_new (s.heap.alloc H) _)
        · rw [if_pos hc, if_pos hc]
          exact ⟨RState.alloc_refines s hs _, rfl, fun l hl => by cases hl⟩
  | storeCorr => exact RState.storeCorr_spec s hs

end Hpelm
