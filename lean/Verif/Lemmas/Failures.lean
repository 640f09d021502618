import Verif.Model.Failures
import Verif.Lemmas.Frame

/-! States after calls that raised. -/

set_option linter.unusedSectionVars false

namespace Hpelm
variable {K : Type} [Field K] [LinearOrder K]
open Spec

/-- Everything but the accumulated matrices is the same. -/
def SameNet (n n' : NNet K) : Prop := ∃ c, n' = { n with corr := c }

theorem SameNet.rfl' (n : NNet K) : SameNet n n := ⟨n.corr, rfl⟩
theorem SameNet.trans {a b c : NNet K} (h : SameNet a b) (h' : SameNet b c) : SameNet a c := by
  obtain ⟨x, rfl⟩ := h
  obtain ⟨y, rfl⟩ := h'
  exact ⟨y, rfl⟩

/-- `addBatchS` in terms of the matrices the network starts from. -/
theorem addBatchS_eq (env : Env K) (n : NNet K) (X T : Mat K) (w) :
    n.addBatchS env X T w = match n.project env X with
      | .error x => (n, .error x)
      | .ok H => match weighted env n.prec w H (T.map (env.cast n.prec)) with
        | .error x => (n, .error x)
        | .ok (H, T) =>
          if H.cols ≠ n.corr0.1.cols then ({ n with corr := some n.corr0 }, .error .valueError)
          else
            let n2 := if n.solver = .cuda then { n with corr := some n.corr0 }
              else { n with corr := some (n.updHH n.corr0.1 H, n.corr0.2) }
            if H.nrows ≠ T.nrows then (n2, .error .valueError)
            else match n.addHT n.corr0.2 (H.tmul T) with
              | none => (n2, .error .valueError)
              | some HT => ({ n with corr := some (n.updHH n.corr0.1 H, HT) }, .ok ()) := rfl

theorem addBatchS_same (env : Env K) (n : NNet K) (X T : Mat K) (w) : SameNet n (n.addBatchS env X T w).1 := by
  rw [addBatchS_eq]
  cases n.project env X with
  | error x => exact SameNet.rfl' n
  | ok H =>
    simp only
    cases weighted env n.prec w H (T.map (env.cast n.prec)) with
    | error x => exact SameNet.rfl' n
    | ok p =>
      obtain ⟨H, T⟩ := p
      simp only
      split
      · exact ⟨_, rfl⟩
      · split
        · split <;> exact ⟨_, rfl⟩
        · split
          · split <;> exact ⟨_, rfl⟩
          · exact ⟨_, rfl⟩

/-- Shapes of a pair of accumulated matrices. -/
def CorrShape (n : NNet K) (c : Mat K × Mat K) : Prop :=
  c.1.WF ∧ c.2.WF ∧ some c.1.nrows = n.L ∧ some c.1.cols = n.L ∧ some c.2.nrows = n.L ∧ c.2.cols = n.outputs

theorem consistent_corr {n : NNet K} (hc : Consistent n) {c : Mat K × Mat K} (h : CorrShape n c) :
    Consistent { n with corr := some c } := by
  refine corrOk_congr (n := n) rfl rfl rfl rfl rfl hc ?_
  intro HH HT heq
  simp only [Option.some.injEq] at heq
  subst heq
  exact h

theorem corr0_shape {n : NNet K} (hc : Consistent n) {l : Nat} (hl : n.L = some l) : CorrShape n n.corr0 := by
  unfold NNet.corr0
  cases hcorr : n.corr with
  | none => exact ⟨Mat.ofFn_WF _ _ _, Mat.ofFn_WF _ _ _, by simp [hl], by simp [hl], by simp [hl], by simp⟩
  | some c => exact hc.corrs c.1 c.2 hcorr

theorem addHT_shape {n : NNet K} {HT D M : Mat K} (hHT : HT.WF) (h : n.addHT HT D = some M) :
    M.WF ∧ M.nrows = HT.nrows ∧ M.cols = HT.cols := by
  unfold NNet.addHT at h
  split at h
  · injection h with h
    rw [← h]
    exact ⟨Mat.add_WF _ _, by simp, by simp⟩
  · split at h
    · injection h with h
      rw [← h]
      exact ⟨Mat.ofFn_WF _ _ _, by simp, by simp⟩
    · cases h

theorem addBatchS_consistent {env : Env K} {n : NNet K} {X T : Mat K} {w} (hc : Consistent n) :
    Consistent (n.addBatchS env X T w).1 := by
  rw [addBatchS_eq]
  cases hp : n.project env X with
  | error x => exact hc
  | ok H =>
    have hne := ((project_ok_iff env n X H).1 hp).2.2.1
    have h0 := corr0_shape hc (L_of_ne hc hne)
    simp only
    cases weighted env n.prec w H (T.map (env.cast n.prec)) with
    | error x => exact hc
    | ok p =>
      obtain ⟨H, T⟩ := p
      have h1 : CorrShape n (n.updHH n.corr0.1 H, n.corr0.2) :=
        ⟨updHH_WF _ _ _, h0.2.1, by simpa using h0.2.2.1, by simpa using h0.2.2.2.1, h0.2.2.2.2.1, h0.2.2.2.2.2⟩
      have h2 : Consistent (if n.solver = .cuda then { n with corr := some n.corr0 }
          else { n with corr := some (n.updHH n.corr0.1 H, n.corr0.2) }) := by
        split
        · exact consistent_corr hc h0
        · exact consistent_corr hc h1
      simp only
      by_cases c1 : H.cols ≠ n.corr0.1.cols
      · rw [if_pos c1]; exact consistent_corr hc h0
      · rw [if_neg c1]
        by_cases c2 : H.nrows ≠ T.nrows
        · rw [if_pos c2]; exact h2
        · rw [if_neg c2]
          cases hh : n.addHT n.corr0.2 (H.tmul T) with
          | none => exact h2
          | some HT =>
            obtain ⟨a, b, c⟩ := addHT_shape h0.2.1 hh
            exact consistent_corr hc ⟨updHH_WF _ _ _, a, by simpa using h0.2.2.1, by simpa using h0.2.2.2.1,
              by rw [b]; exact h0.2.2.2.2.1, by rw [c]; exact h0.2.2.2.2.2⟩

theorem addBatchS_of_ok {env : Env K} {n n' : NNet K} {X T : Mat K} {w} (hc : Consistent n)
    (h : n.addBatch env X T w = .ok n') : n.addBatchS env X T w = (n', .ok ()) := by
  rw [addBatch_eq] at h
  obtain ⟨H, hH, h⟩ := bind_ok h
  have hne := ((project_ok_iff env n X H).1 hH).2.2.1
  have h0 := corr0_shape hc (L_of_ne hc hne)
  unfold NNet.accum at h
  obtain ⟨⟨H', T'⟩, hw, h⟩ := bind_ok h
  have h : n.accum env H' T' none = .ok n' := h
  rw [accum_none] at h
  rw [addBatchS_eq, hH]
  simp only [hw]
  split at h
  · cases h
  rename_i c1
  simp only [not_or, not_not] at c1
  split at h
  · cases h
  rename_i c2
  injection h with h
  rw [if_neg c2, if_neg (by simp [c1.1])]
  have : n.addHT n.corr0.2 (H'.tmul T') = some (n.corr0.2.add (H'.tmul T')) := by
    unfold NNet.addHT
    rw [if_pos]
    rw [h0.2.2.2.2.2]
    simpa using c1.2
  rw [this]
  simp only [h]

/-- Everything but accumulated data and class weights is the same. -/
structure SameModel (e e' : ELM K) : Prop where
  nnet : SameNet e.nnet e'.nnet
  batch : e'.batch = e.batch
  prec : e'.prec = e.prec
  accelerator : e'.accelerator = e.accelerator
  classification : e'.classification = e.classification

theorem feedS_same {env : Env K} {ic oc : Nat} (bs : List (List (List K) × List (List K))) (e : ELM K) :
    SameModel e (e.feedS env ic oc bs).1 ∧ (e.feedS env ic oc bs).1.wc = e.wc := by
  induction bs generalizing e with
  | nil => exact ⟨⟨SameNet.rfl' _, rfl, rfl, rfl, rfl⟩, rfl⟩
  | cons b bs ih =>
    obtain ⟨Xb, Tb⟩ := b
    unfold ELM.feedS
    cases batchWeights e.classification e.wc ⟨oc, Tb⟩ with
    | error x => exact ⟨⟨SameNet.rfl' _, rfl, rfl, rfl, rfl⟩, rfl⟩
    | ok w =>
      have hs := addBatchS_same env e.nnet ⟨ic, Xb⟩ ⟨oc, Tb⟩ w
      simp only
      cases hr : e.nnet.addBatchS env ⟨ic, Xb⟩ ⟨oc, Tb⟩ w with
      | mk n r =>
        rw [hr] at hs
        cases r with
        | error x => exact ⟨⟨hs, rfl, rfl, rfl, rfl⟩, rfl⟩
        | ok u =>
          obtain ⟨i, iw⟩ := ih { e with nnet := n }
          exact ⟨⟨hs.trans i.nnet, i.batch, i.prec, i.accelerator, i.classification⟩, iw⟩

theorem autoWc_same (env : Env K) (e : ELM K) (ns) : SameModel e (e.autoWc env ns) := by
  unfold ELM.autoWc
  split <;> exact ⟨SameNet.rfl' _, rfl, rfl, rfl, rfl⟩

theorem SameModel.trans {a b c : ELM K} (h : SameModel a b) (h' : SameModel b c) : SameModel a c :=
  ⟨h.1.trans h'.1, h'.2.trans h.2, h'.3.trans h.3, h'.4.trans h.4, h'.5.trans h.5⟩

theorem addDataS_same (env : Env K) (e : ELM K) (X T : Mat K) : SameModel e (e.addDataS env X T).1 := by
  unfold ELM.addDataS
  split
  · exact ⟨SameNet.rfl' _, rfl, rfl, rfl, rfl⟩
  · have h := autoWc_same env e (colSums T)
    simp only
    split
    · exact h
    · exact h
    · exact h.trans (feedS_same _ _).1

theorem feedS_consistent {env : Env K} {ic oc : Nat} (bs : List (List (List K) × List (List K))) {e : ELM K}
    (hc : Consistent e.nnet) : Consistent (e.feedS env ic oc bs).1.nnet := by
  induction bs generalizing e with
  | nil => exact hc
  | cons b bs ih =>
    obtain ⟨Xb, Tb⟩ := b
    unfold ELM.feedS
    cases batchWeights e.classification e.wc ⟨oc, Tb⟩ with
    | error x => exact hc
    | ok w =>
      have hs := addBatchS_consistent (env := env) (X := ⟨ic, Xb⟩) (T := ⟨oc, Tb⟩) (w := w) hc
      simp only
      cases hr : e.nnet.addBatchS env ⟨ic, Xb⟩ ⟨oc, Tb⟩ w with
      | mk n r =>
        rw [hr] at hs
        cases r with
        | error x => exact hs
        | ok u => exact ih (e := { e with nnet := n }) hs

theorem addDataS_consistent {env : Env K} {e : ELM K} {X T : Mat K} (hc : Consistent e.nnet) :
    Consistent (e.addDataS env X T).1.nnet := by
  unfold ELM.addDataS
  split
  · exact hc
  · have h : Consistent (e.autoWc env (colSums T)).nnet := by rw [autoWc_nnet]; exact hc
    simp only
    split
    · exact h
    · exact h
    · exact feedS_consistent _ h

theorem feedS_of_ok {env : Env K} {ic oc : Nat} (bs : List (List (List K) × List (List K))) {e e' : ELM K}
    (hc : Consistent e.nnet) (h : e.feed env ic oc bs = .ok e') : e.feedS env ic oc bs = (e', .ok ()) := by
  induction bs generalizing e with
  | nil => injection h with h; rw [← h]; rfl
  | cons b bs ih =>
    obtain ⟨Xb, Tb⟩ := b
    unfold ELM.feed at h
    obtain ⟨w, hw, h⟩ := bind_ok h
    obtain ⟨n, hn, h⟩ := bind_ok h
    unfold ELM.feedS
    rw [hw]
    simp only
    rw [addBatchS_of_ok hc hn]
    exact ih (addBatch_consistent hc hn) h

theorem addDataS_of_ok {env : Env K} {e e' : ELM K} {X T : Mat K} (hc : Consistent e.nnet)
    (h : e.addData env X T = .ok e') : e.addDataS env X T = (e', .ok ()) := by
  unfold ELM.addData at h
  unfold ELM.addDataS
  by_cases hb : e.batch = 0
  · rw [if_pos hb] at h; cases h
  · rw [if_neg hb] at h ⊢
    obtain ⟨Xs, h1, h⟩ := bind_ok h
    obtain ⟨Ts, h2, h⟩ := bind_ok h
    simp only [h1, h2]
    exact feedS_of_ok _ (by rw [autoWc_nnet]; exact hc) h

theorem known_some {e e' : ELM K} {r r'} (h : known e r = (some e', r')) : e' = e ∧ r' = r := by
  unfold known at h
  injection h with h1 h2
  split at h1
  · cases h1
  · injection h1 with h1; exact ⟨h1.symm, h2.symm⟩

/-- Everything a training run starts from is the same; the output weights are the same. -/
structure Kept (e e' : ELM K) : Prop where
  neurons : e'.nnet.neurons = e.nnet.neurons
  norm : e'.nnet.norm = e.nnet.norm
  inputs : e'.nnet.inputs = e.nnet.inputs
  outputs : e'.nnet.outputs = e.nnet.outputs
  solver : e'.nnet.solver = e.nnet.solver
  nprec : e'.nnet.prec = e.nnet.prec
  prec : e'.prec = e.prec
  accelerator : e'.accelerator = e.accelerator
  B : e'.nnet.B = e.nnet.B

theorem SameModel.kept {e e' : ELM K} (h : SameModel e e') : Kept e e' := by
  obtain ⟨⟨c, hn⟩, _, h3, h4, _⟩ := h
  exact ⟨by rw [hn], by rw [hn], by rw [hn], by rw [hn], by rw [hn], by rw [hn], h3, h4, by rw [hn]⟩

theorem Kept.rfl' (e : ELM K) : Kept e e := ⟨rfl, rfl, rfl, rfl, rfl, rfl, rfl, rfl, rfl⟩
theorem Kept.trans {a b c : ELM K} (h : Kept a b) (h' : Kept b c) : Kept a c :=
  ⟨h'.1.trans h.1, h'.2.trans h.2, h'.3.trans h.3, h'.4.trans h.4, h'.5.trans h.5, h'.6.trans h.6, h'.7.trans h.7,
    h'.8.trans h.8, h'.9.trans h.9⟩

theorem parseArgs_kept (kw : Kwargs K) (args : List String) (e : ELM K) : Kept e (e.parseArgs args kw).1 := by
  have h := parseArgs_frame kw args e
  have hn := parseArgs_nnet kw args e
  refine ⟨?_, h.nnet.norm, h.nnet.inputs, h.nnet.outputs, h.nnet.solver, h.nnet.prec, h.prec, h.accelerator, ?_⟩ <;>
    rw [hn] <;> split <;> rfl

end Hpelm
