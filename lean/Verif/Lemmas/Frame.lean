import Verif.Lemmas.Invariant

/-! What operations leave unchanged. -/

set_option linter.unusedSectionVars false

namespace Hpelm
variable {K : Type}
section
variable [Field K] [LinearOrder K]

/-- Parameters of a network fixed at construction, and its neuron types. -/
structure NFrame (n n' : NNet K) : Prop where
  solver : n'.solver = n.solver
  prec : n'.prec = n.prec
  inputs : n'.inputs = n.inputs
  outputs : n'.outputs = n.outputs
  norm : n'.norm = n.norm
  funcs : n'.neurons.map (·.func) = n.neurons.map (·.func)

/-- Parameters of a model fixed at construction. -/
structure EFrame (e e' : ELM K) : Prop where
  nnet : NFrame e.nnet e'.nnet
  prec : e'.prec = e.prec
  accelerator : e'.accelerator = e.accelerator

theorem NFrame.rfl' (n : NNet K) : NFrame n n := ⟨rfl, rfl, rfl, rfl, rfl, rfl⟩
theorem NFrame.trans {a b c : NNet K} (h : NFrame a b) (h' : NFrame b c) : NFrame a c :=
  ⟨h'.1.trans h.1, h'.2.trans h.2, h'.3.trans h.3, h'.4.trans h.4, h'.5.trans h.5, h'.6.trans h.6⟩
theorem EFrame.rfl' (e : ELM K) : EFrame e e := ⟨NFrame.rfl' _, rfl, rfl⟩
theorem EFrame.trans {a b c : ELM K} (h : EFrame a b) (h' : EFrame b c) : EFrame a c :=
  ⟨h.1.trans h'.1, h'.2.trans h.2, h'.3.trans h.3⟩

theorem addBatch_frame {env : Env K} {n n' : NNet K} {X T : Mat K} {w} (h : n.addBatch env X T w = .ok n') :
    NFrame n n' := by
  obtain ⟨c, rfl⟩ := addBatch_fields h
  exact ⟨rfl, rfl, rfl, rfl, rfl, rfl⟩

theorem solve_frame {env : Env K} {n n' : NNet K} (h : n.solve env = .ok n') : NFrame n n' := by
  unfold NNet.solve at h
  split at h
  · cases h
  · injection h with h; rw [← h]; exact ⟨rfl, rfl, rfl, rfl, rfl, rfl⟩

theorem reset_frame (n : NNet K) : NFrame n n.reset := ⟨rfl, rfl, rfl, rfl, rfl, rfl⟩
theorem prune_frame (n : NNet K) (idx) : NFrame n (n.prune idx) :=
  ⟨rfl, rfl, rfl, rfl, rfl, pruneGroups_funcs _ _⟩

theorem setB_frame {env : Env K} {n n' : NNet K} {B : Mat K} (h : n.setB env B = .ok n') : NFrame n n' := by
  unfold NNet.setB at h
  obtain ⟨_, _, h⟩ := bind_ok h
  obtain ⟨_, _, h⟩ := bind_ok h
  simp only [pure, Except.pure] at h
  injection h with h
  rw [← h]; exact ⟨rfl, rfl, rfl, rfl, rfl, rfl⟩

theorem setCorr_frame {env : Env K} {n n' : NNet K} {HH HT : Mat K} (h : n.setCorr env HH HT = .ok n') : NFrame n n' := by
  unfold NNet.setCorr at h
  obtain ⟨_, _, h⟩ := bind_ok h
  obtain ⟨_, _, h⟩ := bind_ok h
  obtain ⟨_, _, h⟩ := bind_ok h
  obtain ⟨_, _, h⟩ := bind_ok h
  simp only [pure, Except.pure] at h
  injection h with h
  rw [← h]; exact ⟨rfl, rfl, rfl, rfl, rfl, rfl⟩

theorem feed_fields {env : Env K} {ic oc : Nat} (bs : List (List (List K) × List (List K))) {e e' : ELM K}
    (h : e.feed env ic oc bs = .ok e') :
    ∃ c, e' = { e with nnet := { e.nnet with corr := c } } := by
  induction bs generalizing e with
  | nil => injection h with h; exact ⟨e.nnet.corr, by rw [← h]⟩
  | cons b bs ih =>
    obtain ⟨Xb, Tb⟩ := b
    unfold ELM.feed at h
    obtain ⟨w, _, h⟩ := bind_ok h
    obtain ⟨n, hn, h⟩ := bind_ok h
    obtain ⟨c, rfl⟩ := addBatch_fields hn
    obtain ⟨c', hc'⟩ := ih h
    exact ⟨c', hc'⟩

theorem addData_fields {env : Env K} {e e' : ELM K} {X T : Mat K} (h : e.addData env X T = .ok e') :
    ∃ c, e' = { e.autoWc env (colSums T) with nnet := { e.nnet with corr := c } } := by
  unfold ELM.addData at h
  split at h
  · cases h
  obtain ⟨Xs, _, h⟩ := bind_ok h
  obtain ⟨Ts, _, h⟩ := bind_ok h
  have := feed_fields _ h
  rw [autoWc_nnet] at this
  exact this

theorem autoWc_frame (env : Env K) (e : ELM K) (ns : List K) : EFrame e (e.autoWc env ns) := by
  unfold ELM.autoWc
  split
  · exact ⟨NFrame.rfl' _, rfl, rfl⟩
  · exact EFrame.rfl' _

theorem addData_frame {env : Env K} {e e' : ELM K} {X T : Mat K} (h : e.addData env X T = .ok e') : EFrame e e' := by
  obtain ⟨c, rfl⟩ := addData_fields h
  exact ⟨⟨rfl, rfl, rfl, rfl, rfl, rfl⟩, (autoWc_frame env e _).2, (autoWc_frame env e _).3⟩

theorem parseOne_frame (kw : Kwargs K) (e : ELM K) (a : String) : EFrame e (parseOne kw e a).1 := by
  refine ⟨by rw [parseOne_nnet]; exact NFrame.rfl' _, ?_, ?_⟩ <;>
  · unfold parseOne
    repeat' split
    all_goals first | rfl | (simp only []; repeat' split)
    all_goals rfl

theorem parseLoop_frame (kw : Kwargs K) (as : List String) (e : ELM K) : EFrame e (parseLoop kw as e).1 := by
  induction as generalizing e with
  | nil => exact EFrame.rfl' _
  | cons a as ih =>
    unfold parseLoop
    have := parseOne_frame kw e a
    split
    · rename_i e' x heq; rw [heq] at this; exact this
    · rename_i e' heq; rw [heq] at this; exact this.trans (ih _)

theorem parseArgs_frame (kw : Kwargs K) (args : List String) (e : ELM K) : EFrame e (e.parseArgs args kw).1 := by
  unfold ELM.parseArgs
  by_cases h : e.nnet.neurons.isEmpty
  · rw [if_pos h]; exact EFrame.rfl' _
  · rw [if_neg h]
    simp only
    have h0 : EFrame e { e with nnet := e.nnet.reset, rankingOP := false, kmaxOp := none, classification := none, wc := none } :=
      ⟨reset_frame _, rfl, rfl⟩
    split
    · exact h0
    split
    · exact h0
    have := parseLoop_frame kw (args.map upper)
      { e with nnet := e.nnet.reset, rankingOP := false, kmaxOp := none, classification := none, wc := none }
    split
    · rename_i heq; rw [heq] at this; exact h0.trans this
    · rename_i heq; rw [heq] at this
      simp only
      split
      · exact h0.trans ⟨this.1, this.2, this.3⟩
      · exact h0.trans this

theorem refit_frame {env : Env K} {e e' : ELM K} {best : List Nat} {X T : Mat K}
    (h : e.refit env best X T = .ok e') : EFrame e e' := by
  unfold ELM.refit at h
  obtain ⟨n1, h1, h⟩ := bind_ok h
  obtain ⟨n2, h2, h⟩ := bind_ok h
  simp only [pure, Except.pure] at h
  injection h with h
  rw [← h]
  exact ⟨((prune_frame _ best).trans (addBatch_frame h1)).trans (solve_frame h2), rfl, rfl⟩

theorem trainV_frame {env : Env K} {sh} {e : ELM K} {X T Xv Tv : Mat K} {r}
    (h : trainV env sh e X T Xv Tv = .ok r) : EFrame e r.1 := by
  unfold trainV at h
  obtain ⟨e1, h1, h⟩ := bind_ok h
  obtain ⟨_, _, h⟩ := bind_ok h
  obtain ⟨_, _, h⟩ := bind_ok h
  obtain ⟨_, _, h⟩ := bind_ok h
  obtain ⟨_, _, h⟩ := bind_ok h
  obtain ⟨_, _, h⟩ := bind_ok h
  obtain ⟨_, _, h⟩ := bind_ok h
  obtain ⟨e2, h2, h⟩ := bind_ok h
  simp only [pure, Except.pure] at h
  injection h with h
  rw [← h]
  exact (addData_frame h1).trans (refit_frame h2)

theorem trainLOO_frame {env : Env K} {sh} {e : ELM K} {X T : Mat K} {r}
    (h : trainLOO env sh e X T = .ok r) : EFrame e r.1 := by
  unfold trainLOO at h
  obtain ⟨_, _, h⟩ := bind_ok h
  obtain ⟨e1, h1, h⟩ := bind_ok h
  obtain ⟨_, _, h⟩ := bind_ok h
  obtain ⟨_, _, h⟩ := bind_ok h
  obtain ⟨_, _, h⟩ := bind_ok h
  obtain ⟨_, _, h⟩ := bind_ok h
  obtain ⟨_, _, h⟩ := bind_ok h
  obtain ⟨e2, h2, h⟩ := bind_ok h
  simp only [pure, Except.pure] at h
  injection h with h
  rw [← h]
  exact (addData_frame h1).trans (refit_frame h2)

theorem trainCV_frame {env : Env K} {sh} {e : ELM K} {X T : Mat K} {k} {r}
    (h : trainCV env sh e X T k = .ok r) : EFrame e r.1 := by
  unfold trainCV at h
  obtain ⟨_, _, h⟩ := bind_ok h
  obtain ⟨_, _, h⟩ := bind_ok h
  obtain ⟨_, _, h⟩ := bind_ok h
  obtain ⟨_, _, h⟩ := bind_ok h
  obtain ⟨_, _, h⟩ := bind_ok h
  obtain ⟨e2, h2, h⟩ := bind_ok h
  simp only [pure, Except.pure] at h
  injection h with h
  rw [← h]
  exact refit_frame h2

theorem trainBody_frame {env : Env K} {fs rnd} {e : ELM K} {X T : Mat K} {args kw r}
    (h : e.trainBody env fs rnd X T args kw = .ok r) : EFrame e r.2 := by
  unfold ELM.trainBody at h
  split at h
  · split at h
    · obtain ⟨_, _, h⟩ := bind_ok h
      obtain ⟨r', hr, h⟩ := bind_ok h
      simp only [pure, Except.pure] at h
      injection h with h
      rw [← h]
      exact trainV_frame hr
    · cases h
  split at h
  · split at h
    · cases h
    · obtain ⟨_, _, h⟩ := bind_ok h
      obtain ⟨r', hr, h⟩ := bind_ok h
      simp only [pure, Except.pure] at h
      injection h with h
      rw [← h]
      exact trainCV_frame hr
  split at h
  · obtain ⟨r', hr, h⟩ := bind_ok h
    simp only [pure, Except.pure] at h
    injection h with h
    rw [← h]
    exact trainLOO_frame hr
  · obtain ⟨e1, h1, h⟩ := bind_ok h
    obtain ⟨n1, h2, h⟩ := bind_ok h
    simp only [pure, Except.pure] at h
    injection h with h
    rw [← h]
    exact (addData_frame h1).trans ⟨solve_frame h2, rfl, rfl⟩

theorem train_frame (env : Env K) (fs rnd) (e : ELM K) (X T args kw) :
    EFrame e (e.train env fs rnd X T args kw).2 := by
  unfold ELM.train
  split
  · exact EFrame.rfl' _
  · have h1 := parseArgs_frame kw args e
    split
    · rename_i heq; rw [heq] at h1; exact h1
    · rename_i heq; rw [heq] at h1
      split
      · exact h1
      · rename_i h2; exact h1.trans (trainBody_frame h2)

end
end Hpelm
