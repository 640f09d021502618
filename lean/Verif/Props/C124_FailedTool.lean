import Verif.Props.C71_C72_Handles
import Verif.Model.Hdf5

/-!
# C124: normalization calls that raise
-/

namespace Hpelm.Props
open Hpelm Spec

/-- A handle that nobody holds stays open whatever is done later. -/
theorem stray_stays {s : FState} {h : Handle} (hs : h ∈ s.stray) (a : Act) : h ∈ (s.act a).2.stray := by
  have hp : ∀ (f : String) (w fin : Bool) (x : Option PyErr), h ∈ (s.peek f w fin x).2.stray := by
    intro f w fin x
    unfold FState.peek
    split
    · exact hs
    · split
      · exact hs
      · split
        · exact hs
        · exact List.mem_cons_of_mem _ hs
  have hw : ∀ (m : Mode) (f : String) (x : Option PyErr), h ∈ (s.writeFile m f x).2.stray := by
    intro m f x
    unfold FState.writeFile
    split
    · exact hs
    · split
      · exact hs
      · exact List.mem_cons_of_mem _ hs
  cases a with
  | check x => cases x <;> exact hs
  | keep f w =>
    unfold FState.act
    simp only
    split <;> exact hs
  | peek f w fin x => exact hp f w fin x
  | make f x => exact hw .w f x
  | append f x => exact hw .a f x
  | prepare f x =>
    unfold FState.act
    simp only
    split
    · exact hp f false true x
    · exact hw .w f x
  | pop =>
    unfold FState.act
    simp only
    split <;> exact hs
  | remove f => exact hs
  | del => exact hs

theorem stray_acts {s : FState} {h : Handle} (hs : h ∈ s.stray) (as : List Act) : h ∈ (s.acts as).2.stray := by
  induction as generalizing s with
  | nil => exact hs
  | cons a as ih =>
    have := stray_stays hs a
    unfold FState.acts
    split
    · rename_i e s' he; rw [he] at this; exact this
    · rename_i s' he; rw [he] at this; exact ih this

theorem stray_run {s : FState} {h : Handle} (hs : h ∈ s.stray) (hist : List (FCall × (Nat → Option PyErr))) : h ∈ (s.run hist).2.stray := by
  induction hist generalizing s with
  | nil => exact hs
  | cons p hist ih => exact ih (stray_acts hs (p.1.steps p.2))

theorem canOpen_blocked {s : FState} {f : String} {m m' : Mode} (hs : ⟨f, m'⟩ ∈ s.stray) (hm : m.clash m' = true) :
    s.canOpen m f = .error .valueError := by
  unfold FState.canOpen
  rw [if_pos]
  rw [List.any_eq_true]
  exact ⟨⟨f, m'⟩, List.mem_append_right _ hs, by simp [hm]⟩

/-- Steps that raise when the file is open for writing. -/
def Act.reads (f : String) : Act → Prop
  | .keep g _ => g = f
  | .peek g _ _ _ => g = f
  | .make g _ => g = f
  | _ => False

theorem acts_blocked {s : FState} {f : String} (hs : ⟨f, .a⟩ ∈ s.stray) {as : List Act} (ha : ∃ a ∈ as, Act.reads f a) :
    (s.acts as).1 ≠ .ok () := by
  induction as generalizing s with
  | nil => obtain ⟨a, h, _⟩ := ha; cases h
  | cons b as ih =>
    obtain ⟨a, hmem, hr⟩ := ha
    unfold FState.acts
    rcases List.mem_cons.1 hmem with rfl | hmem
    · have : ∃ e s', s.act a = (.error e, s') := by
        cases a with
        | keep g w =>
          have hg : g = f := hr
          subst hg
          refine ⟨if w then .ioError else .valueError, s, ?_⟩
          unfold FState.act
          simp only
          rw [canOpen_blocked hs rfl]
        | peek g w fin x =>
          have hg : g = f := hr
          subst hg
          refine ⟨if w then .ioError else .valueError, s, ?_⟩
          unfold FState.act FState.peek
          simp only
          rw [canOpen_blocked hs rfl]
        | make g x =>
          have hg : g = f := hr
          subst hg
          refine ⟨.valueError, s, ?_⟩
          unfold FState.act FState.writeFile
          simp only
          rw [canOpen_blocked hs rfl]
        | check x => exact hr.elim
        | append g x => exact hr.elim
        | prepare g x => exact hr.elim
        | pop => exact hr.elim
        | remove g => exact hr.elim
        | del => exact hr.elim
      obtain ⟨e, s', h⟩ := this
      rw [h]
      exact fun h => by cases h
    · have hst := stray_stays hs b
      split
      · exact fun h => by cases h
      · rename_i s' he
        rw [he] at hst
        exact ih hst ⟨a, hmem, hr⟩

theorem corrs_read {c : FCall} {f : String} (hf : f ∈ corrs c) (d : Nat → Option PyErr) : ∃ a ∈ c.steps d, Act.reads f a := by
  cases c with
  | solveCorr g h =>
    rcases List.mem_cons.1 hf with rfl | hf
    · exact ⟨_, List.mem_cons_self, rfl⟩
    · rcases List.mem_cons.1 hf with rfl | hf
      · exact ⟨.peek f true false (d 1), by simp [FCall.steps, corrActs], rfl⟩
      · cases hf
  | validationCorr g h X T =>
    rcases List.mem_cons.1 hf with rfl | hf
    · exact ⟨.peek f true false (d 2), by simp [FCall.steps, corrActs], rfl⟩
    · rcases List.mem_cons.1 hf with rfl | hf
      · exact ⟨.peek f true false (d 3), by simp [FCall.steps, corrActs], rfl⟩
      · cases hf
  | _ => simp [corrs] at hf

/-- The call opens the file and raises. -/
theorem normalize_fails {s : FState} {f : String} {d : Nat → Option PyErr} {x : PyErr} (ho : s.canOpen .a f = .ok ()) (hd : d 0 = some x) :
    s.call (.normalizeHdf5 f) d =
      (.error x, { s with onDisk := fun g => if g = f then true else s.onDisk g, stray := ⟨f, .a⟩ :: s.stray }) := by
  unfold FState.call FCall.steps FState.acts FState.act FState.writeFile
  simp only [ho, hd]

/-- **C124 (refuted)** "After a normalization call that raised, the file can be used once the cause is corrected": for every file that
could be opened, every exception (wrong number of means or standard deviations, batch size zero, parameters in a tuple) and every further history of calls, including deletion of the model and repetition of the normalization with correct arguments, each
call in that session that is given the file as data or as stored matrix raises, and so does making the file anew. -/
theorem C124_usable_refuted (s : FState) (f : String) (d : Nat → Option PyErr) (x : PyErr) (ho : s.canOpen .a f = .ok ())
    (hd : d 0 = some x) (mid : List (FCall × (Nat → Option PyErr))) (c : FCall) (dc : Nat → Option PyErr)
    (hc : f ∈ inputs c ∨ f ∈ corrs c ∨ c = .makeHdf5 f) :
    (s.call (.normalizeHdf5 f) d).1 = .error x ∧ (((s.call (.normalizeHdf5 f) d).2.run mid).2.call c dc).1 ≠ .ok () := by
  rw [normalize_fails ho hd]
  refine ⟨rfl, ?_⟩
  have hs : (⟨f, .a⟩ : Handle) ∈ (FState.run { s with onDisk := fun g => if g = f then true else s.onDisk g, stray := ⟨f, .a⟩ :: s.stray }
      mid).2.stray := stray_run List.mem_cons_self mid
  apply acts_blocked hs
  rcases hc with h | h | rfl
  · obtain ⟨w, hw⟩ := inputs_kept h dc
    exact ⟨_, hw, rfl⟩
  · exact corrs_read h dc
  · exact ⟨.make f (dc 1), by simp [FCall.steps], rfl⟩

/-- **C124 (refuted)** "A normalization call that raises creates no file": with the name of a file that does not exist the call raises, and the
file exists afterwards. -/
theorem C124_created_refuted (s : FState) (f : String) (d : Nat → Option PyErr) (x : PyErr) (ho : s.canOpen .a f = .ok ())
    (hf : s.onDisk f = false) (hd : d 0 = some x) :
    (s.call (.normalizeHdf5 f) d).1 = .error x ∧ (s.call (.normalizeHdf5 f) d).2.onDisk f ≠ s.onDisk f := by
  rw [normalize_fails ho hd]
  exact ⟨rfl, by simp [hf]⟩

/-- **C124 (partial)** What remains true.  A call that raises concerns no other file: the same other files exist and each can be opened in the
same modes as before.  If the file cannot be opened at all, nothing changes.  The normalization itself can be repeated. -/
theorem C124_failed_partial (s : FState) (f : String) (d : Nat → Option PyErr) :
    (∀ g, g ≠ f → (s.call (.normalizeHdf5 f) d).2.onDisk g = s.onDisk g ∧
      ∀ m, (s.call (.normalizeHdf5 f) d).2.canOpen m g = s.canOpen m g) ∧
    (∀ x, s.canOpen .a f = .error x → s.call (.normalizeHdf5 f) d = (.error x, s)) ∧
    (s.canOpen .a f = .ok () → ((s.call (.normalizeHdf5 f) d).2.call (.normalizeHdf5 f) fine).1 = .ok ()) := by
  have hbad : ∀ x, s.canOpen .a f = .error x → s.call (.normalizeHdf5 f) d = (.error x, s) := by
    intro x h
    unfold FState.call FCall.steps FState.acts FState.act FState.writeFile
    simp only [h]
  have hgood : s.canOpen .a f = .ok () → d 0 = none → (s.call (.normalizeHdf5 f) d).2 =
      { s with onDisk := fun g => if g = f then true else s.onDisk g } := by
    intro h hd
    unfold FState.call FCall.steps FState.acts FState.act FState.writeFile
    simp only [h, hd]
    cases d 1 <;> simp only [FState.acts, FState.act]
  have hagain : ∀ s' : FState, s'.canOpen .a f = .ok () → (s'.call (.normalizeHdf5 f) fine).1 = .ok () := by
    intro s' h
    unfold FState.call FCall.steps FState.acts FState.act FState.writeFile
    simp only [h, fine, FState.acts, FState.act]
  have hopen : ∀ (D : String → Bool) (l : List Handle), (∀ h ∈ l, h = ⟨f, .a⟩) → s.canOpen .a f = .ok () →
      (FState.mk D s.kept (l ++ s.stray)).canOpen .a f = .ok () := by
    intro D l hl h
    unfold FState.canOpen at h ⊢
    by_cases hc : s.handles.any (fun h => h.file == f && Mode.clash .a h.mode) = true
    · rw [if_pos hc] at h; cases h
    · rw [if_neg]
      · simp
      · intro hn
        apply hc
        rw [List.any_eq_true] at hn ⊢
        obtain ⟨q, hq, hq2⟩ := hn
        rcases List.mem_append.1 hq with hq | hq
        · exact ⟨q, List.mem_append_left _ hq, hq2⟩
        · rcases List.mem_append.1 hq with hq | hq
          · rw [hl q hq] at hq2; simp [Mode.clash] at hq2
          · exact ⟨q, List.mem_append_right _ hq, hq2⟩
  refine ⟨fun g hg => ?_, hbad, fun h => ?_⟩
  · cases ho : s.canOpen .a f with
    | error x => rw [hbad x ho]; exact ⟨rfl, fun _ => rfl⟩
    | ok u =>
      cases hd : d 0 with
      | none =>
        rw [hgood ho hd]
        refine ⟨by simp [hg], fun m => ?_⟩
        unfold FState.canOpen FState.handles
        simp only [hg, if_false]
      | some x =>
        rw [normalize_fails ho hd]
        refine ⟨by simp [hg], fun m => ?_⟩
        have hfg : (f == g) = false := by simp [Ne.symm hg]
        unfold FState.canOpen FState.handles
        simp only [hg, if_false, List.any_append, List.any_cons, hfg, Bool.false_and, Bool.false_or]
  · apply hagain
    cases hd : d 0 with
    | none =>
      rw [hgood h hd]
      exact hopen _ [] (by simp) h
    | some x =>
      rw [normalize_fails h hd]
      exact hopen _ [⟨f, .a⟩] (by simp) h

/-- The hypotheses of C124 in a concrete case: one mean too many raises, and so does a mistyped name; the corrected call works, and normalizes; training on the normalized
file raises in this session, although it works in a new one. -/
example : (normalizeHdf5 QEnv.env hFiles "X" (some [1, 2, 3]) (some [1, 2]) none 2).map Prod.fst = .error .assertion ∧
    (normalizeHdf5 QEnv.env hFiles "X" (some [1, 2]) (some [1, 2]) none 2).map Prod.fst = .ok ([1, 2], [1, 2]) ∧
    ((FState.mk (fun f => (hFiles f).isSome) [] []).run
      [(.normalizeHdf5 "X", fun _ => some .assertion), (.normalizeHdf5 "X", fine), (.train (some "X") (some "T") none none, fine)]).1 =
      [.error .assertion, .ok (), .error .ioError] ∧
    ((FState.mk (fun f => (hFiles f).isSome) [] []).run
      [(.normalizeHdf5 "X", fine), (.train (some "X") (some "T") none none, fine)]).1 = [.ok (), .ok ()] ∧
    (FState.mk (fun f => (hFiles f).isSome) [] []).canOpen .a "x" = .ok () ∧ (hFiles "x").isSome = false ∧
    (normalizeHdf5 QEnv.env hFiles "x" none none none 2).map Prod.fst = .error .typeError :=
  ⟨by decide +kernel, by decide +kernel, by decide +kernel, by decide +kernel, by decide +kernel, by decide +kernel, by decide +kernel⟩

/-- **C72 (refuted)** "A prediction or projection into a file that raised midway leaves files that can be used": for every exception in the loop
over the data, every file of inputs and of results, and every further history of calls, including deletion of the model, each call in that
session that is given the unfinished file as data raises, and so does making it anew. -/
theorem C72_unfinished_refuted (call : Option String → Option String → FCall) (hcall : call = .predict ∨ call = .project) (s : FState)
    (X f : String) (d : Nat → Option PyErr) (x : PyErr) (hs : s.stray = []) (hX : s.onDisk X = true) (hf : f ∉ X :: s.kept)
    (h0 : d 0 = none) (h1 : d 1 = none) (h2 : d 2 = none) (h3 : d 3 = some x) (mid : List (FCall × (Nat → Option PyErr))) (c : FCall)
    (dc : Nat → Option PyErr) (hc : f ∈ inputs c ∨ f ∈ corrs c ∨ c = .makeHdf5 f) :
    (s.call (call (some X) (some f)) d).1 = .error x ∧ (((s.call (call (some X) (some f)) d).2.run mid).2.call c dc).1 ≠ .ok () := by
  obtain ⟨D, k, st⟩ := s
  simp only at hs hX hf
  subst hs
  have key : (FState.mk D k []).call (call (some X) (some f)) d = (.error x, ⟨mark (mark D [f]) [f], X :: k, [⟨f, .a⟩]⟩) := by
    have hsteps : (call (some X) (some f)).steps d = [.check none] ++ keepX (some X) none ++ outActs (some f) none (some x) := by
      rcases hcall with rfl | rfl <;> simp only [FCall.steps, h0, h1, h2, h3]
    unfold FState.call
    rw [hsteps]
    have e1 : (FState.mk D k []).canOpen .r X = .ok () := canOpen_r (s := ⟨D, k, []⟩) rfl hX
    have e2 : (FState.mk D (X :: k) []).canOpen .w f = .ok () := canOpen_w (s := ⟨D, X :: k, []⟩) (by decide) rfl hf
    have e3 : (FState.mk (fun g => if g = f then true else D g) (X :: k) []).canOpen .a f = .ok () :=
      canOpen_w (s := ⟨_, X :: k, []⟩) (by decide) rfl hf
    simp only [keepX, outActs, List.cons_append, List.nil_append, FState.acts, FState.act, FState.writeFile, e1, e2, e3]
    rw [← mark_one, ← mark_one]
  rw [key]
  refine ⟨rfl, ?_⟩
  have hst : (⟨f, .a⟩ : Handle) ∈ (FState.run ⟨mark (mark D [f]) [f], X :: k, [⟨f, .a⟩]⟩ mid).2.stray := stray_run List.mem_cons_self mid
  apply acts_blocked hst
  rcases hc with h | h | rfl
  · obtain ⟨w, hw⟩ := inputs_kept h dc
    exact ⟨_, hw, rfl⟩
  · exact corrs_read h dc
  · exact ⟨.make f (dc 1), by simp [FCall.steps], rfl⟩

/-- Hypotheses of the theorem above in a concrete case: the range given to `project` does not fit the file of results (C72), and the session goes
on with a new model. -/
example : exTrained.hProject QEnv.env hFiles (.path "X") .file 1 none = .error .valueError ∧ (hFiles "X").isSome = true ∧
    "H" ∉ "X" :: ([] : List String) ∧ "H" ∈ inputs (.error (some "T") (some "H")) ∧
    ((FState.mk (fun f => (hFiles f).isSome) [] []).run
      [(.project (some "X") (some "H"), fun k => if k = 3 then some .valueError else none), (.del, fine), (.error (some "T") (some "H"), fine)]).1 =
      [.error .valueError, .ok (), .error .valueError] :=
  ⟨by decide +kernel, by decide +kernel, by decide, by decide, by decide +kernel⟩

end Hpelm.Props
