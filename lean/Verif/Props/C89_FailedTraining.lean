import Verif.Props.C69_C70_Failures
import Verif.Props.C86_Completes

/-!
# C89 — what a training call that raises leaves behind

`train` starts with a reset and adds the data before it selects neurons.  `ELM.trainS` (Verif/Model/Failures.lean) gives the state after an
exception that the user catches.
-/

set_option linter.unusedSectionVars false

namespace Hpelm.Props
open Hpelm Spec
variable {K : Type} [Field K] [LinearOrder K]

/-- Without weights, adding data to a consistent network either succeeds or changes nothing in the network. -/
theorem feedS_atomic {env : Env K} {ic oc : Nat} (bs : List (List (List K) × List (List K))) {e e' : ELM K} {x} (hc : Consistent e.nnet)
    (hw : e.classification ≠ some "wc") (ho : oc = e.nnet.outputs) (hl : ∀ b ∈ bs, b.1.length = b.2.length)
    (h : e.feedS env ic oc bs = (e', .error x)) : e'.nnet = e.nnet := by
  have hbw : ∀ (f : ELM K) T, f.classification = e.classification → batchWeights f.classification f.wc T = .ok none := by
    intro f T hf
    unfold batchWeights
    rw [if_neg (by rw [hf]; exact hw)]
    rfl
  by_cases hp : ic = e.nnet.inputs ∧ (∀ g ∈ e.nnet.neurons, (groupAct env g).isSome) ∧ e.nnet.neurons ≠ []
  · exfalso
    have key : ∀ (bs : List (List (List K) × List (List K))) (f : ELM K), (∀ b ∈ bs, b.1.length = b.2.length) → SameNet e.nnet f.nnet →
        Consistent f.nnet → f.classification = e.classification → (f.feedS env ic oc bs).2 = .ok () := by
      intro bs
      induction bs with
      | nil => intro f _ _ _ _; rfl
      | cons b bs ih =>
        intro f hl hs hcf hcl
        obtain ⟨Xb, Tb⟩ := b
        obtain ⟨c, hn⟩ := hs
        unfold ELM.feedS
        rw [hbw f _ hcl]
        simp only
        have hproj := (project_ok_iff env f.nnet ⟨ic, Xb⟩ _).2 ⟨by rw [hn]; exact hp.1, by rw [hn]; exact hp.2.1, by rw [hn]; exact hp.2.2, rfl⟩
        obtain ⟨c', h'⟩ := addBatchS_fresh (T := ⟨oc, Tb⟩) hcf hproj (hl _ List.mem_cons_self) (by rw [hn]; exact ho)
        have hc' := addBatchS_consistent (env := env) (X := ⟨ic, Xb⟩) (T := ⟨oc, Tb⟩) (w := none) hcf
        rw [h'] at hc' ⊢
        exact ih _ (fun b hb => hl b (List.mem_cons_of_mem _ hb)) ⟨some c', by rw [hn]⟩ hc' hcl
    have := key bs e hl (SameNet.rfl' _) hc rfl
    rw [h] at this
    cases this
  · cases bs with
    | nil => cases h
    | cons b bs =>
      obtain ⟨Xb, Tb⟩ := b
      unfold ELM.feedS at h
      rw [hbw e _ rfl] at h
      simp only at h
      cases hq : e.nnet.project env ⟨ic, Xb⟩ with
      | ok H =>
        exfalso
        obtain ⟨a, b, c, _⟩ := (project_ok_iff _ _ _ _).1 hq
        exact hp ⟨a, b, c⟩
      | error y =>
        rw [addBatchS_eq, hq] at h
        injection h with h _
        rw [← h]

theorem addDataS_atomic {env : Env K} {e e' : ELM K} {X T : Mat K} {x} (hc : Consistent e.nnet) (hw : e.classification ≠ some "wc")
    (ho : T.cols = e.nnet.outputs) (hN : X.nrows = T.nrows) (h : e.addDataS env X T = (e', .error x)) : e'.nnet = e.nnet := by
  unfold ELM.addDataS at h
  split at h
  · injection h with h _; rw [← h]
  · have ha : e.autoWc env (colSums T) = e := by
      unfold ELM.autoWc
      rw [if_neg (fun hh => hw hh.1)]
    simp only [ha] at h
    split at h
    · injection h with h _; rw [← h]
    · injection h with h _; rw [← h]
    · rename_i hX hT
      refine feedS_atomic _ hc hw ho ?_ h
      intro b hb
      have hlen : ∀ (ss : List Nat) (l l' : List (List K)), l.length = l'.length → ∀ b ∈ (splitSizes ss l).zip (splitSizes ss l'), b.1.length = b.2.length := by
        intro ss
        induction ss with
        | nil => intro l l' _ b hb; cases hb
        | cons s ss ih =>
          intro l l' hl b hb
          simp only [splitSizes, List.zip_cons_cons, List.mem_cons] at hb
          rcases hb with rfl | hb
          · simp [hl]
          · exact ih _ _ (by simp [hl]) b hb
      unfold arraySplit at hX hT
      split at hX
      · cases hX
      · rename_i hk
        rw [if_neg hk] at hT
        injection hX with hX
        injection hT with hT
        subst hX hT
        have : X.rows.length = T.rows.length := hN
        rw [this] at hb
        exact hlen _ _ _ this b hb

/-- C89 (partial: training without structure selection, not as a weighted classification).  If `train` raises, the network is as it was before
the call, or as after `reset`: no data of the failed call stay in it. -/
theorem C89_plain_partial (env : Env K) (fs : Files K) (rnd : Rnd) (e e' : ELM K) (X T : DataArg K) (args : List String) (kw : Kwargs K) (x : PyErr)
    (hc : Consistent e.nnet) (hm : "V" ∉ args ∧ "CV" ∉ args ∧ "LOO" ∉ args) (hw : ¬ Given args "WC")
    (h : e.stepS env fs (.train rnd X T args kw) = (some e', .error x)) : e'.nnet = e.nnet ∨ e'.nnet = e.nnet.reset := by
  simp only [ELM.stepS, ELM.trainS] at h
  split at h
  · injection h with h _
    injection h with h
    rw [← h]; exact Or.inl rfl
  · rename_i X' T' h1
    obtain ⟨_, hTo, hN⟩ := checkBoth_ok h1
    split at h
    · rename_i e1 _ hp
      injection h with h _
      injection h with h
      have := parseArgs_nnet kw args e
      rw [hp] at this
      rw [← h]
      simp only at this
      split at this
      · exact Or.inl this
      · exact Or.inr this
    · rename_i e1 hp
      have hr := (parseArgs_kw hp).2.1
      have hc1 := parseArgs_consistent hc hp
      have hw1 : e1.classification ≠ some "wc" := fun hh => hw ((parseArgs_wc hp).1 hh)
      obtain ⟨h, hx⟩ := known_some h
      right
      rw [h]
      have hb : ∀ q, e1.trainBodyS env fs rnd X' T' args kw = q → q.2 = .error x → q.1.nnet = e.nnet.reset := by
        intro q hq hq2
        unfold ELM.trainBodyS at hq
        rw [if_neg hm.1, if_neg hm.2.1, if_neg hm.2.2] at hq
        cases h3 : e1.addDataS env X' T' with
        | mk e2 r =>
          rw [h3] at hq
          cases r with
          | error y =>
            rw [← hq, ← hr]
            exact addDataS_atomic hc1 hw1 (by rw [hTo, hr]; rfl) hN h3
          | ok u =>
            simp only at hq
            have hs := (addDataS_same env e1 X' T').nnet
            rw [h3] at hs
            obtain ⟨c, hn⟩ := hs
            simp only at hn
            split at hq
            · rename_i y hy
              rw [← hq]
              unfold NNet.solve at hy
              split at hy
              · rename_i hcn
                simp only
                rw [hn] at hcn ⊢
                simp only at hcn
                rw [hcn, hr]
                rfl
              · cases hy
            · rw [← hq] at hq2; cases hq2
      exact hb _ rfl hx.symm

/-- C89.  What a failed `train` leaves behind is either the unchanged model or does not depend on data fed before: the same call on a model that
was reset leaves the same state. -/
theorem C89_forgets (env : Env K) (fs : Files K) (rnd : Rnd) (e e' : ELM K) (X T : DataArg K) (args : List String) (kw : Kwargs K) (x : PyErr)
    (h : e.stepS env fs (.train rnd X T args kw) = (some e', .error x)) :
    e' = e ∨ ({ e with nnet := e.nnet.reset } : ELM K).stepS env fs (.train rnd X T args kw) = (some e', .error x) := by
  simp only [ELM.stepS, ELM.trainS] at h ⊢
  have hch : checkBoth fs e.nnet.reset X T = checkBoth fs e.nnet X T := rfl
  rw [hch]
  cases h1 : checkBoth fs e.nnet X T with
  | error y =>
    rw [h1] at h
    injection h with h _
    injection h with h
    exact Or.inl h.symm
  | ok p =>
    rw [h1] at h
    obtain ⟨X', T'⟩ := p
    simp only at h ⊢
    by_cases hne : e.nnet.neurons.isEmpty
    · left
      unfold ELM.parseArgs at h
      rw [if_pos hne] at h
      injection h with h _
      injection h with h
      exact h.symm
    · right
      have hpa : ({ e with nnet := e.nnet.reset } : ELM K).parseArgs args kw = e.parseArgs args kw := by
        unfold ELM.parseArgs
        rw [if_neg hne, if_neg (by exact hne)]
        rfl
      rw [hpa]
      exact h

/-- C89 (refuted).  A leave-one-out training with optimal pruning raises (C86), the user catches the exception and feeds other data with `add_data`
and solves: the weights are not those of the other data, because the data of the failed call are still there. -/
theorem C89_mixed_refuted :
    let ops : List (Op ℚ) := [.addData ⟨1, [[1], [3]]⟩ ⟨1, [[2], [2]]⟩, .solve]
    let failed := oneNeuron.runS QEnv.env (fun _ => none) (.train ⟨fun _ => [0]⟩ (.mat ⟨1, [[1], [2]]⟩) (.mat ⟨1, [[1], [2]]⟩) ["LOO", "OP"] {} :: ops)
    let fresh := oneNeuron.runS QEnv.env (fun _ => none) ops
    failed.2 = [.error .valueError, .ok (), .ok ()] ∧ fresh.2 = [.ok (), .ok ()] ∧
      failed.1.map (·.nnet.B) ≠ none ∧ failed.1.map (·.nnet.B) ≠ fresh.1.map (·.nnet.B) := by
  decide +kernel

/-- The hypotheses of `C89_plain_partial` and `C89_forgets` are met: training with an empty data set raises and loses what was fed before. -/
example : ({ oneNeuron with nnet := { oneNeuron.nnet with corr := some (⟨1, [[5]]⟩, ⟨1, [[7]]⟩) } } : ELM ℚ).stepS QEnv.env (fun _ => none)
    (.train ⟨fun _ => []⟩ (.mat ⟨1, []⟩) (.mat ⟨1, []⟩) [] {}) = (some oneNeuron, .error .valueError) := by
  decide +kernel

end Hpelm.Props
