import Verif.Lemmas.Handles
import Verif.Props.C42_C45_OutOfMemory

/-!
# C71, C72: open HDF5 files
-/

namespace Hpelm.Props
open Hpelm Spec

theorem mem_toList {X : Option String} {f : String} : f ∈ X.toList ↔ f ∈ X := by cases X <;> simp [eq_comm]

/-- One call without data-dependent exceptions, in a process where only the model holds files open. -/
theorem call_fine {c : FCall} {d : String → Bool} {k : List String} (hin : ∀ f ∈ inputs c ++ corrs c, d f = true)
    (hout : ∀ f ∈ outputs c, f ∉ k ∧ f ∉ inputs c) (hn : Named c) :
    ∃ k', (FState.mk d k []).call c fine = (.ok (), ⟨after d c, k', []⟩) ∧ ∀ f ∈ k', f ∈ k ∨ f ∈ inputs c := by
  have hd : ∀ i, fine i = none := fun _ => rfl
  cases c with
  | train X T Xv Tv =>
    simp only [inputs, corrs, List.append_nil, List.mem_append, mem_toList] at hin
    refine ⟨Tv.toList ++ (Xv.toList ++ (T.toList ++ (X.toList ++ k))), ?_, ?_⟩
    · simp only [FState.call, FCall.steps, acts_append, hd, check_ok,
        keepX_ok (k := k) (fun f hf => hin f (.inl (.inl (.inl hf)))), keepT_ok (k := _) (fun f hf => hin f (.inl (.inl (.inr hf)))),
        keepX_ok (X := Xv) (k := _) (fun f hf => hin f (.inl (.inr hf))), keepT_ok (T := Tv) (fun f hf => hin f (.inr hf))]
      simp [after, outputs]
    · intro f
      simp only [List.mem_append, inputs]
      tauto
  | addData X T fHH fHT =>
    simp only [inputs, corrs, List.append_nil, List.mem_append, mem_toList] at hin hout
    have ho : outputs (.addData X T fHH fHT) = pairFiles fHH fHT := by cases fHH <;> cases fHT <;> rfl
    rw [ho] at hout
    have hk : ∀ f ∈ pairFiles fHH fHT, f ∉ T.toList ++ (X.toList ++ k) := by
      intro f hf hm
      have := hout f hf
      simp only [List.mem_append, mem_toList] at hm
      tauto
    refine ⟨T.toList ++ (X.toList ++ k), ?_, ?_⟩
    · simp only [FState.call, FCall.steps, acts_append, hd, check_ok,
        keepX_ok (k := k) (fun f hf => hin f (.inl hf)), keepT_ok (fun f hf => hin f (.inr hf)), prepareActs_ok hk, storeActs_ok hk]
      simp only [after, ho, mark_mark, mark_same]
      rfl
    · intro f
      simp only [List.mem_append, inputs]
      tauto
  | solveCorr f g =>
    simp only [inputs, corrs, List.nil_append, List.mem_cons, List.not_mem_nil, or_false] at hin
    refine ⟨k, ?_, fun f hf => .inl hf⟩
    simp only [FState.call, FCall.steps, hd]
    rw [corrActs_ok (hin f (.inl rfl)) (hin g (.inr rfl))]
    simp [after, outputs]
  | predict X Y =>
    simp only [inputs, corrs, List.append_nil, mem_toList] at hin hout
    have ho : outputs (.predict X Y) = Y.toList := by cases Y <;> rfl
    rw [ho] at hout
    have hk : ∀ f ∈ Y, f ∉ X.toList ++ k := by
      intro f hf hm
      have := hout f (mem_toList.2 hf)
      simp only [List.mem_append, mem_toList] at hm
      tauto
    refine ⟨X.toList ++ k, ?_, ?_⟩
    · simp only [FState.call, FCall.steps, acts_append, hd, check_ok, keepX_ok (k := k) hin, outActs_ok hk]
      simp only [after, ho]
      rfl
    · intro f
      simp only [List.mem_append, inputs]
      tauto
  | project X Y =>
    simp only [inputs, corrs, List.append_nil, mem_toList] at hin hout
    have ho : outputs (.project X Y) = Y.toList := by cases Y <;> rfl
    rw [ho] at hout
    have hk : ∀ f ∈ Y, f ∉ X.toList ++ k := by
      intro f hf hm
      have := hout f (mem_toList.2 hf)
      simp only [List.mem_append, mem_toList] at hm
      tauto
    refine ⟨X.toList ++ k, ?_, ?_⟩
    · simp only [FState.call, FCall.steps, acts_append, hd, check_ok, keepX_ok (k := k) hin, outActs_ok hk]
      simp only [after, ho]
      rfl
    · intro f
      simp only [List.mem_append, inputs]
      tauto
  | error T Y =>
    simp only [inputs, corrs, List.append_nil, List.mem_append, mem_toList] at hin
    refine ⟨Y.toList ++ (T.toList ++ k), ?_, ?_⟩
    · simp only [FState.call, FCall.steps, acts_append, hd, check_ok,
        keepT_ok (k := k) (fun f hf => hin f (.inl hf)), keepT_ok (T := Y) (k := T.toList ++ k) (fun f hf => hin f (.inr hf))]
      simp [after, outputs]
    · intro f
      simp only [List.mem_append, inputs]
      tauto
  | validationCorr f g X T =>
    simp only [inputs, corrs, List.mem_append, List.mem_cons, List.not_mem_nil, or_false, mem_toList] at hin
    refine ⟨T.toList ++ (X.toList ++ k), ?_, ?_⟩
    · simp only [FState.call, FCall.steps, acts_append, hd,
        keepX_ok (k := k) (fun f hf => hin f (.inl (.inl hf))), keepT_ok (fun f hf => hin f (.inl (.inr hf))),
        corrActs_ok (hin f (.inr (.inl rfl))) (hin g (.inr (.inr rfl)))]
      simp [after, outputs]
    · intro f
      simp only [List.mem_append, inputs]
      tauto
  | trainAsync X T =>
    obtain ⟨hX, hT⟩ := hn
    obtain ⟨X, rfl⟩ := Option.isSome_iff_exists.1 hX
    obtain ⟨T, rfl⟩ := Option.isSome_iff_exists.1 hT
    simp only [inputs, corrs, List.append_nil, List.mem_append, mem_toList] at hin
    refine ⟨[T] ++ ([X] ++ k), ?_, ?_⟩
    · have hx : ∀ f ∈ some X, d f = true := fun f hf => hin f (.inl hf)
      have ht : ∀ f ∈ some T, d f = true := fun f hf => hin f (.inr hf)
      simp only [FState.call, FCall.steps, asyncActs, acts_append, hd, check_ok, keepX_ok hx, keepT_ok ht]
      simp [prepareActs, storeActs, FState.acts, FState.act, after, outputs]
    · intro f
      simp only [List.mem_append, inputs, Option.toList]
      tauto
  | addDataAsync X T fHH fHT =>
    obtain ⟨hX, hT⟩ := hn
    obtain ⟨X, rfl⟩ := Option.isSome_iff_exists.1 hX
    obtain ⟨T, rfl⟩ := Option.isSome_iff_exists.1 hT
    simp only [inputs, corrs, List.append_nil, List.mem_append, mem_toList] at hin hout
    have ho : outputs (.addDataAsync (some X) (some T) fHH fHT) = pairFiles fHH fHT := by cases fHH <;> cases fHT <;> rfl
    rw [ho] at hout
    have hk : ∀ f ∈ pairFiles fHH fHT, f ∉ (some T).toList ++ ((some X).toList ++ k) := by
      intro f hf hm
      have := hout f hf
      simp only [List.mem_append, mem_toList] at hm
      tauto
    refine ⟨k, ?_, fun f hf => .inl hf⟩
    have hx : ∀ f ∈ some X, d f = true := fun f hf => hin f (.inl hf)
    have ht : ∀ f ∈ some T, d f = true := fun f hf => hin f (.inr hf)
    have hpop : ∀ d' : String → Bool, (FState.mk d' ((some T).toList ++ ((some X).toList ++ k)) []).acts [.check none, .pop, .pop, .check none] =
        (.ok (), ⟨d', k, []⟩) := fun d' => rfl
    simp only [FState.call, FCall.steps, asyncActs, acts_append, hd, check_ok, keepX_ok hx, keepT_ok ht, prepareActs_ok hk, hpop,
      storeActs_ok (fun f hf => (hout f hf).1)]
    simp only [after, ho, mark_mark, mark_same]
    rfl
  | predictAsync X Y =>
    simp only [inputs, corrs, List.append_nil, mem_toList] at hin hout
    have hk : Y ∉ X.toList ++ k := by
      intro hm
      have := hout Y (by simp [outputs])
      simp only [List.mem_append, mem_toList] at hm
      tauto
    refine ⟨X.toList ++ k, ?_, ?_⟩
    · simp only [FState.call, FCall.steps, acts_append, hd, check_ok, keepX_ok (k := k) hin, FState.acts, FState.act]
      rw [writeFile_ok (by decide) hk]
      rfl
    · intro f
      simp only [List.mem_append, inputs]
      tauto
  | makeHdf5 f =>
    refine ⟨k, ?_, fun f hf => .inl hf⟩
    simp only [FState.call, FCall.steps, FState.acts, FState.act, hd]
    rw [writeFile_ok (by decide) (hout f (by simp [outputs])).1]
    rfl
  | normalizeHdf5 f =>
    refine ⟨k, ?_, fun f hf => .inl hf⟩
    simp only [FState.call, FCall.steps, FState.acts, FState.act, hd]
    rw [writeFile_ok (by decide) (hout f (by simp [outputs])).1]
    rfl
  | remove f => exact ⟨k, rfl, fun f hf => .inl hf⟩
  | del => exact ⟨[], by simp [FState.call, FCall.steps, FState.acts, FState.act, after, outputs], by simp⟩

/-- **C71 (partial)** "A call that has everything it needs is not stopped by files left open by earlier calls."  Holds for every
history in which no file is both given as data and written: every call returns normally. -/
theorem C71_separate_files_partial (disk : String → Bool) (hist : List FCall) (hav : Available disk hist)
    (hsep : ∀ c ∈ hist, ∀ c' ∈ hist, ∀ f ∈ outputs c, f ∉ inputs c') (hn : ∀ c ∈ hist, Named c) :
    ∀ r ∈ ((FState.mk disk [] []).run (hist.map fun c => (c, fine))).1, r = .ok () := by
  suffices H : ∀ (hist : List FCall) (disk : String → Bool) (k : List String) (R : List String), Available disk hist →
      (∀ f ∈ k, f ∈ R) → (∀ c ∈ hist, ∀ f ∈ inputs c, f ∈ R) → (∀ c ∈ hist, ∀ f ∈ outputs c, f ∉ R) → (∀ c ∈ hist, Named c) →
      ∀ r ∈ ((FState.mk disk k []).run (hist.map fun c => (c, fine))).1, r = .ok () by
    refine H hist disk [] (hist.flatMap inputs) hav (by simp) ?_ ?_ hn
    · intro c hc f hf
      exact List.mem_flatMap.2 ⟨c, hc, hf⟩
    · intro c hc f hf hm
      obtain ⟨c', hc', hf'⟩ := List.mem_flatMap.1 hm
      exact hsep c hc c' hc' f hf hf'
  intro hist
  induction hist with
  | nil => intro _ _ _ _ _ _ _ _ r hr; cases hr
  | cons c cs ih =>
    intro disk k R hav hk hR hW hn r hr
    obtain ⟨k', hcall, hk'⟩ := call_fine (k := k) hav.1
      (fun f hf => ⟨fun h => hW c (by simp) f hf (hk f h), fun h => hW c (by simp) f hf (hR c (by simp) f h)⟩) (hn c (by simp))
    simp only [List.map_cons, FState.run, hcall, List.mem_cons] at hr
    rcases hr with rfl | hr
    · rfl
    · refine ih (after disk c) k' R hav.2 ?_ (fun c hc => hR c (by simp [hc])) (fun c hc => hW c (by simp [hc]))
        (fun c hc => hn c (by simp [hc])) r hr
      intro f hf
      rcases hk' f hf with h | h
      · exact hk f h
      · exact hR c (by simp) f h

/-- Steps that close files of the model. -/
def Act.closes : Act → Bool
  | .pop | .del => true
  | _ => false

theorem act_kept {s : FState} {a : Act} (ha : Act.closes a = false) {f : String} (hf : f ∈ s.kept) : f ∈ (s.act a).2.kept := by
  cases a with
  | check x => cases x <;> exact hf
  | keep g w =>
    simp only [FState.act]
    cases s.canOpen .r g with
    | error e => exact hf
    | ok u => exact List.mem_cons_of_mem _ hf
  | peek g w fin x =>
    simp only [FState.act, FState.peek]
    cases s.canOpen .r g with
    | error e => exact hf
    | ok u => cases x <;> cases fin <;> exact hf
  | make g x =>
    simp only [FState.act, FState.writeFile]
    cases s.canOpen .w g with
    | error e => exact hf
    | ok u => cases x <;> exact hf
  | append g x =>
    simp only [FState.act, FState.writeFile]
    cases s.canOpen .a g with
    | error e => exact hf
    | ok u => cases x <;> exact hf
  | prepare g x =>
    simp only [FState.act]
    split
    · simp only [FState.peek]
      cases s.canOpen .r g with
      | error e => exact hf
      | ok u => cases x <;> exact hf
    · simp only [FState.writeFile]
      cases s.canOpen .w g with
      | error e => exact hf
      | ok u => cases x <;> exact hf
  | pop => simp [Act.closes] at ha
  | remove g => exact hf
  | del => simp [Act.closes] at ha

theorem acts_kept {s : FState} {as : List Act} (ha : ∀ a ∈ as, Act.closes a = false) {f : String} (hf : f ∈ s.kept) :
    f ∈ (s.acts as).2.kept := by
  induction as generalizing s with
  | nil => exact hf
  | cons a as ih =>
    have h1 := act_kept (ha a (by simp)) hf
    simp only [FState.acts]
    rcases h : s.act a with ⟨_ | _, s'⟩
    · rw [h] at h1; exact h1
    · rw [h] at h1; exact ih (fun a h => ha a (by simp [h])) h1

/-- A file given as data to a call that returned is still open. -/
theorem acts_keeps {s : FState} {as : List Act} (ha : ∀ a ∈ as, Act.closes a = false) {f : String} {w : Bool} (hf : Act.keep f w ∈ as)
    (hr : (s.acts as).1 = .ok ()) : f ∈ (s.acts as).2.kept := by
  induction as generalizing s with
  | nil => cases hf
  | cons a as ih =>
    simp only [FState.acts] at hr ⊢
    rcases h : s.act a with ⟨_ | _, s'⟩
    · rw [h] at hr; cases hr
    · rw [h] at hr
      rcases List.mem_cons.1 hf with rfl | hf
      · refine acts_kept (fun a h => ha a (by simp [h])) ?_
        simp only [FState.act] at h
        cases hc : s.canOpen .r f with
        | error e => rw [hc] at h; injection h with h1 h2; cases h1
        | ok u =>
          rw [hc] at h
          injection h with h1 h2
          rw [← h2]
          exact List.mem_cons_self
      · exact ih (fun a h => ha a (by simp [h])) hf hr

/-- A step that writes a file the model holds open. -/
theorem acts_write {s : FState} {as : List Act} (ha : ∀ a ∈ as, Act.closes a = false) {f : String} {x : Option PyErr}
    (hw : Act.make f x ∈ as ∨ Act.append f x ∈ as) (hf : f ∈ s.kept) : (s.acts as).1 ≠ .ok () := by
  induction as generalizing s with
  | nil => rcases hw with h | h <;> cases h
  | cons a as ih =>
    intro hr
    simp only [FState.acts] at hr
    rcases h : s.act a with ⟨_ | _, s'⟩
    · rw [h] at hr; cases hr
    · rw [h] at hr
      have h1 := act_kept (ha a (by simp)) hf
      rw [h] at h1
      have hne : (∃ y, a = Act.make f y) ∨ (∃ y, a = Act.append f y) → False := by
        rintro (⟨y, rfl⟩ | ⟨y, rfl⟩) <;> simp [FState.act, FState.writeFile, canOpen_kept _ hf] at h
      refine ih (fun a h => ha a (by simp [h])) ?_ h1 hr
      rcases hw with hw | hw
      · rcases List.mem_cons.1 hw with rfl | hw
        · exact (hne (.inl ⟨_, rfl⟩)).elim
        · exact .inl hw
      · rcases List.mem_cons.1 hw with rfl | hw
        · exact (hne (.inr ⟨_, rfl⟩)).elim
        · exact .inr hw

/-- Not an asynchronous training call. -/
def Sync : FCall → Prop
  | .trainAsync _ _ | .addDataAsync _ _ _ _ | .del => False
  | _ => True

theorem keepX_closes {X : Option String} {x : Option PyErr} : ∀ a ∈ keepX X x, Act.closes a = false := by
  cases X <;> simp [keepX, Act.closes]

theorem keepT_closes {X : Option String} {x : Option PyErr} : ∀ a ∈ keepT X x, Act.closes a = false := by
  cases X <;> simp [keepT, Act.closes]

theorem steps_closes {c : FCall} (hc : Sync c) (d : Nat → Option PyErr) : ∀ a ∈ c.steps d, Act.closes a = false := by
  intro a ha
  have hp : ∀ {f g : Option String} {x y : Option PyErr}, a ∈ prepareActs f g x y → Act.closes a = false := by
    intro f g x y h
    cases f <;> cases g <;> simp [prepareActs] at h
    rcases h with rfl | rfl <;> rfl
  have hst : ∀ {f g : Option String} {x y z : Option PyErr}, a ∈ storeActs f g x y z → Act.closes a = false := by
    intro f g x y z h
    cases f <;> cases g <;> simp [storeActs] at h
    rcases h with rfl | rfl | rfl <;> rfl
  have ho : ∀ {f : Option String} {x y : Option PyErr}, a ∈ outActs f x y → Act.closes a = false := by
    intro f x y h
    cases f <;> simp [outActs] at h
    · subst h; rfl
    · rcases h with rfl | rfl <;> rfl
  have hck : ∀ {x : Option PyErr}, a = .check x → Act.closes a = false := by rintro x rfl; rfl
  cases c with
  | trainAsync => exact hc.elim
  | addDataAsync => exact hc.elim
  | del => exact hc.elim
  | solveCorr f g =>
    simp only [FCall.steps, corrActs, List.mem_cons, List.not_mem_nil, or_false] at ha
    rcases ha with rfl | rfl | rfl <;> rfl
  | makeHdf5 f =>
    simp only [FCall.steps, List.mem_cons, List.not_mem_nil, or_false] at ha
    rcases ha with rfl | rfl <;> rfl
  | normalizeHdf5 f =>
    simp only [FCall.steps, List.mem_cons, List.not_mem_nil, or_false] at ha
    rcases ha with rfl | rfl <;> rfl
  | remove f =>
    simp only [FCall.steps, List.mem_cons, List.not_mem_nil, or_false] at ha
    rcases ha with rfl; rfl
  | predictAsync X Y =>
    simp only [FCall.steps, List.mem_append, List.mem_cons, List.not_mem_nil, or_false] at ha
    rcases ha with (rfl | ha) | rfl | rfl
    · rfl
    · exact keepX_closes a ha
    · rfl
    · rfl
  | validationCorr f g X T =>
    simp only [FCall.steps, corrActs, List.mem_append, List.mem_cons, List.not_mem_nil, or_false] at ha
    rcases ha with (ha | ha) | rfl | rfl | rfl
    · exact keepX_closes a ha
    · exact keepT_closes a ha
    all_goals rfl
  | train X T Xv Tv =>
    simp only [FCall.steps, List.mem_append, List.mem_cons, List.not_mem_nil, or_false] at ha
    rcases ha with (((((rfl | ha) | ha) | rfl) | ha) | ha) | rfl
    · rfl
    · exact keepX_closes a ha
    · exact keepT_closes a ha
    · rfl
    · exact keepX_closes a ha
    · exact keepT_closes a ha
    · rfl
  | addData X T fHH fHT =>
    simp only [FCall.steps, List.mem_append, List.mem_cons, List.not_mem_nil, or_false] at ha
    rcases ha with ((((rfl | ha) | ha) | ha) | rfl) | ha
    · rfl
    · exact keepX_closes a ha
    · exact keepT_closes a ha
    · exact hp ha
    · rfl
    · exact hst ha
  | predict X Y =>
    simp only [FCall.steps, List.mem_append, List.mem_cons, List.not_mem_nil, or_false] at ha
    rcases ha with (rfl | ha) | ha
    · rfl
    · exact keepX_closes a ha
    · exact ho ha
  | project X Y =>
    simp only [FCall.steps, List.mem_append, List.mem_cons, List.not_mem_nil, or_false] at ha
    rcases ha with (rfl | ha) | ha
    · rfl
    · exact keepX_closes a ha
    · exact ho ha
  | error T Y =>
    simp only [FCall.steps, List.mem_append, List.mem_cons, List.not_mem_nil, or_false] at ha
    rcases ha with (ha | ha) | rfl
    · exact keepT_closes a ha
    · exact keepT_closes a ha
    · rfl

theorem mem_keepX {X : Option String} {f : String} (h : f ∈ X.toList) (x : Option PyErr) : Act.keep f true ∈ keepX X x := by
  cases X with
  | none => cases h
  | some g => simp at h; subst h; simp [keepX]

theorem mem_keepT {X : Option String} {f : String} (h : f ∈ X.toList) (x : Option PyErr) : Act.keep f false ∈ keepT X x := by
  cases X with
  | none => cases h
  | some g => simp at h; subst h; simp [keepT]

/-- A file given as data is opened and kept. -/
theorem inputs_kept {c : FCall} {f : String} (hf : f ∈ inputs c) (d : Nat → Option PyErr) : ∃ w, Act.keep f w ∈ c.steps d := by
  cases c <;> simp only [inputs, List.mem_append, List.not_mem_nil] at hf
  case train X T Xv Tv =>
    rcases hf with ((h | h) | h) | h
    · exact ⟨true, by simp [FCall.steps, mem_keepX h]⟩
    · exact ⟨false, by simp [FCall.steps, mem_keepT h]⟩
    · exact ⟨true, by simp [FCall.steps, mem_keepX h]⟩
    · exact ⟨false, by simp [FCall.steps, mem_keepT h]⟩
  case error T Y =>
    rcases hf with h | h
    · exact ⟨false, by simp [FCall.steps, mem_keepT h]⟩
    · exact ⟨false, by simp [FCall.steps, mem_keepT h]⟩
  case predict X Y => exact ⟨true, by simp [FCall.steps, mem_keepX hf]⟩
  case project X Y => exact ⟨true, by simp [FCall.steps, mem_keepX hf]⟩
  case predictAsync X Y => exact ⟨true, by simp [FCall.steps, mem_keepX hf]⟩
  all_goals
    rcases hf with h | h
    · exact ⟨true, by simp [FCall.steps, asyncActs, mem_keepX h]⟩
    · exact ⟨false, by simp [FCall.steps, asyncActs, mem_keepT h]⟩

/-- A file that a call writes is opened for writing. -/
theorem outputs_written {c : FCall} {f : String} (hf : f ∈ outputs c) (d : Nat → Option PyErr) :
    ∃ x, Act.make f x ∈ c.steps d ∨ Act.append f x ∈ c.steps d := by
  cases c with
  | addData X T a b =>
    cases a <;> cases b <;> simp [outputs] at hf
    rcases hf with rfl | rfl
    · exact ⟨d 8, .inr (by simp [FCall.steps, storeActs])⟩
    · exact ⟨d 9, .inr (by simp [FCall.steps, storeActs])⟩
  | addDataAsync X T a b =>
    cases a <;> cases b <;> simp [outputs] at hf
    rcases hf with rfl | rfl
    · exact ⟨d 8, .inr (by simp [FCall.steps, asyncActs, storeActs])⟩
    · exact ⟨d 9, .inr (by simp [FCall.steps, asyncActs, storeActs])⟩
  | predict X Y =>
    cases Y <;> simp [outputs] at hf
    subst hf
    exact ⟨d 2, .inl (by simp [FCall.steps, outActs])⟩
  | project X Y =>
    cases Y <;> simp [outputs] at hf
    subst hf
    exact ⟨d 2, .inl (by simp [FCall.steps, outActs])⟩
  | predictAsync X Y =>
    simp [outputs] at hf
    subst hf
    exact ⟨d 2, .inl (by simp [FCall.steps])⟩
  | makeHdf5 g =>
    simp [outputs] at hf
    subst hf
    exact ⟨d 1, .inl (by simp [FCall.steps])⟩
  | normalizeHdf5 g =>
    simp [outputs] at hf
    subst hf
    exact ⟨d 0, .inr (by simp [FCall.steps])⟩
  | _ => simp [outputs] at hf

/-- **C71 (refuted, every case)** Once a call that got a file as data has returned, no later call that writes this file can
succeed while the model object lives: whatever calls `mid` are made in between. -/
theorem C71_rewrite_refuted (s s1 : FState) (c1 c2 : FCall) (d1 d2 : Nat → Option PyErr) (mid : List (FCall × (Nat → Option PyErr)))
    (f : String) (h1 : Sync c1) (hf1 : f ∈ inputs c1) (hr : s.call c1 d1 = (.ok (), s1)) (hm : ∀ p ∈ mid, Sync p.1) (h2 : Sync c2)
    (hf2 : f ∈ outputs c2) : ((s1.run mid).2.call c2 d2).1 ≠ .ok () := by
  have hk : f ∈ s1.kept := by
    obtain ⟨w, hw⟩ := inputs_kept hf1 d1
    have := acts_keeps (s := s) (steps_closes h1 d1) hw (by rw [← FState.call, hr])
    rw [← FState.call, hr] at this
    exact this
  have hk2 : f ∈ (s1.run mid).2.kept := by
    clear hr
    induction mid generalizing s1 with
    | nil => exact hk
    | cons p mid ih =>
      exact ih (s1 := (s1.call p.1 p.2).2) (fun q hq => hm q (by simp [hq])) (acts_kept (steps_closes (hm p (by simp)) p.2) hk)
  obtain ⟨x, hx⟩ := outputs_written hf2 d2
  exact acts_write (steps_closes h2 d2) hx hk2

/-- Data, targets and predictions on disk. -/
def hFiles : Files ℚ := fun f =>
  if f = "X" then some ⟨⟨2, [[1, 0], [0, 1], [2, 3]]⟩, none, none⟩
  else if f = "T" then some ⟨⟨1, [[1], [2], [3]]⟩, none, none⟩
  else if f = "Y" then some ⟨⟨1, [[5], [6], [16]]⟩, none, none⟩
  else none

/-- **C71 (refuted)** `error("T", "Y")` and then `predict("X", "Y")`: both calls are fine for the data (each of them succeeds in
a fresh process), but the second raises ValueError because the first left "Y" open. -/
theorem C71_predict_after_error_refuted :
    (∃ v, exTrained.hErrorOf hFiles (.path "T") (.path "Y") 0 none = .ok (some v)) ∧
    (∃ Y, exTrained.hPredict QEnv.env hFiles (.path "X") .file 0 none = .ok Y) ∧
    ((FState.mk (fun f => (hFiles f).isSome) [] []).run [(.predict (some "X") (some "Y"), fine)]).1 = [.ok ()] ∧
    ((FState.mk (fun f => (hFiles f).isSome) [] []).run
      [(.error (some "T") (some "Y"), fine), (.predict (some "X") (some "Y"), fine)]).1 = [.ok (), .error .valueError] :=
  ⟨⟨67, by decide +kernel⟩, ⟨⟨1, [[5], [6], [16]]⟩, by decide +kernel⟩, by decide +kernel, by decide +kernel⟩

/-- A workflow that keeps the files apart: training in parts into "HH", "HT", solving, predicting twice into "Y", testing the predictions
copied elsewhere. -/
def exHist : List FCall :=
  [.addData (some "X") (some "T") (some "HH") (some "HT"), .addDataAsync (some "X") (some "T") (some "HH") (some "HT"),
    .validationCorr "HH" "HT" (some "X") (some "T"), .predict (some "X") (some "Y"), .predict (some "X") (some "Y"), .error (some "T") (some "X")]

example : Available (fun f => (hFiles f).isSome) exHist ∧ (∀ c ∈ exHist, ∀ c' ∈ exHist, ∀ f ∈ outputs c, f ∉ inputs c') ∧
    (∀ c ∈ exHist, Named c) := by
  refine ⟨?_, ?_, ?_⟩
  · simp [exHist, Available, inputs, corrs, outputs, after, hFiles]
  · simp [exHist, inputs, outputs]
  · simp [exHist, Named]

example : ∃ s1 : FState, (FState.mk (fun f => (hFiles f).isSome) [] []).call (.error (some "T") (some "Y")) fine = (.ok (), s1) ∧
    ((s1.run [(.predict (some "X") none, fine)]).2.call (.normalizeHdf5 "Y") fine).1 = .error .valueError :=
  ⟨_, Prod.ext (by decide +kernel) rfl, by decide +kernel⟩

/-- A step leaves no handle behind: it raises nothing while a file is open in a local variable. -/
def Act.tidy : Act → Prop
  | .peek _ _ fin x => fin = true ∨ x = none
  | .make _ x | .append _ x | .prepare _ x => x = none
  | _ => True

theorem act_stray {s : FState} {a : Act} (ha : Act.tidy a) : (s.act a).2.stray = s.stray := by
  cases a with
  | check x => cases x <;> rfl
  | keep g w =>
    simp only [FState.act]
    cases s.canOpen .r g <;> rfl
  | peek g w fin x =>
    simp only [FState.act, FState.peek]
    cases s.canOpen .r g with
    | error e => rfl
    | ok u =>
      cases x with
      | none => rfl
      | some x =>
        rcases ha with h | h
        · simp [h]
        · cases h
  | make g x =>
    have : x = none := ha
    subst this
    simp only [FState.act, FState.writeFile]
    cases s.canOpen .w g <;> rfl
  | append g x =>
    have : x = none := ha
    subst this
    simp only [FState.act, FState.writeFile]
    cases s.canOpen .a g <;> rfl
  | prepare g x =>
    have : x = none := ha
    subst this
    simp only [FState.act, FState.peek, FState.writeFile]
    split
    · cases s.canOpen .r g <;> rfl
    · cases s.canOpen .w g <;> rfl
  | pop =>
    simp only [FState.act]
    cases s.kept <;> rfl
  | remove g => rfl
  | del => rfl

theorem acts_stray {s : FState} {as : List Act} (ha : ∀ a ∈ as, Act.tidy a) : (s.acts as).2.stray = s.stray := by
  induction as generalizing s with
  | nil => rfl
  | cons a as ih =>
    have h1 := act_stray (s := s) (ha a (by simp))
    simp only [FState.acts]
    rcases h : s.act a with ⟨_ | _, s'⟩
    · rw [h] at h1; exact h1
    · rw [h] at h1; rw [← h1]; exact ih (fun a h => ha a (by simp [h]))

theorem keepX_tidy {X : Option String} {x : Option PyErr} : ∀ a ∈ keepX X x, Act.tidy a := by
  cases X <;> simp [keepX, Act.tidy]

theorem keepT_tidy {X : Option String} {x : Option PyErr} : ∀ a ∈ keepT X x, Act.tidy a := by
  cases X <;> simp [keepT, Act.tidy]

theorem prepareActs_tidy {f g : Option String} {x y : Option PyErr} (h : pairFiles f g = [] ∨ (x = none ∧ y = none)) :
    ∀ a ∈ prepareActs f g x y, Act.tidy a := by
  cases f <;> cases g <;> simp_all [prepareActs, Act.tidy, pairFiles]

theorem storeActs_tidy {f g : Option String} {x y z : Option PyErr} (h : pairFiles f g = [] ∨ (y = none ∧ z = none)) :
    ∀ a ∈ storeActs f g x y z, Act.tidy a := by
  cases f <;> cases g <;> simp_all [storeActs, Act.tidy, pairFiles]

theorem outActs_tidy {f : Option String} {x y : Option PyErr} (h : f = none ∨ (x = none ∧ y = none)) :
    ∀ a ∈ outActs f x y, Act.tidy a := by
  cases f <;> simp_all [outActs, Act.tidy]

/-- The steps of a call that writes and solves nothing, or of a call without data-dependent exceptions. -/
theorem steps_tidy {c : FCall} {d : Nat → Option PyErr} (h : (outputs c = [] ∧ corrs c = []) ∨ ∀ k, d k = none) :
    ∀ a ∈ c.steps d, Act.tidy a := by
  have happ : ∀ {l m : List Act}, (∀ a ∈ l, Act.tidy a) → (∀ a ∈ m, Act.tidy a) → ∀ a ∈ l ++ m, Act.tidy a := by
    intro l m h1 h2 a ha
    rcases List.mem_append.1 ha with h | h
    · exact h1 a h
    · exact h2 a h
  have hck : ∀ x : Option PyErr, ∀ a ∈ [Act.check x], Act.tidy a := by
    intro x a ha
    rw [List.mem_singleton.1 ha]; trivial
  have hpair : ∀ {f g : Option String}, (pairFiles f g = [] ∧ True) ∨ (∀ k, d k = none) → ∀ i j, pairFiles f g = [] ∨ (d i = none ∧ d j = none) := by
    rintro f g (h | h) i j
    · exact .inl h.1
    · exact .inr ⟨h i, h j⟩
  have hasync : ∀ X T f g, ((pairFiles f g = [] ∧ True) ∨ (∀ k, d k = none)) → ∀ a ∈ asyncActs X T f g d, Act.tidy a := by
    intro X T f g hh
    refine happ (happ (happ (happ (happ (hck _) keepX_tidy) keepT_tidy) (prepareActs_tidy (hpair hh _ _))) ?_) (storeActs_tidy (hpair hh _ _))
    intro a ha
    simp only [List.mem_cons, List.not_mem_nil, or_false] at ha
    rcases ha with rfl | rfl | rfl | rfl <;> trivial
  cases c with
  | train X T Xv Tv => exact happ (happ (happ (happ (happ (happ (hck _) keepX_tidy) keepT_tidy) (hck _)) keepX_tidy) keepT_tidy) (hck _)
  | addData X T f g =>
    have hh : (pairFiles f g = [] ∧ True) ∨ (∀ k, d k = none) := by
      rcases h with h | h
      · left; cases f <;> cases g <;> simp_all [outputs, pairFiles]
      · exact .inr h
    exact happ (happ (happ (happ (happ (hck _) keepX_tidy) keepT_tidy) (prepareActs_tidy (hpair hh _ _))) (hck _)) (storeActs_tidy (hpair hh _ _))
  | solveCorr f g =>
    rcases h with h | h
    · simp [corrs] at h
    · intro a ha
      simp only [FCall.steps, corrActs, List.mem_cons, List.not_mem_nil, or_false] at ha
      rcases ha with rfl | rfl | rfl
      · exact .inr (h 0)
      · exact .inr (h 1)
      · trivial
  | predict X Y =>
    refine happ (happ (hck _) keepX_tidy) (outActs_tidy ?_)
    rcases h with h | h
    · left; cases Y <;> simp_all [outputs]
    · exact .inr ⟨h _, h _⟩
  | project X Y =>
    refine happ (happ (hck _) keepX_tidy) (outActs_tidy ?_)
    rcases h with h | h
    · left; cases Y <;> simp_all [outputs]
    · exact .inr ⟨h _, h _⟩
  | error T Y => exact happ (happ keepT_tidy keepT_tidy) (hck _)
  | validationCorr f g X T =>
    rcases h with h | h
    · simp [corrs] at h
    · refine happ (happ keepX_tidy keepT_tidy) ?_
      intro a ha
      simp only [corrActs, List.mem_cons, List.not_mem_nil, or_false] at ha
      rcases ha with rfl | rfl | rfl
      · exact .inr (h 2)
      · exact .inr (h 3)
      · trivial
  | trainAsync X T => exact happ (happ (happ (happ keepX_tidy keepT_tidy) (hck _)) (hasync X T none none (.inl ⟨rfl, trivial⟩))) (hck _)
  | addDataAsync X T f g =>
    refine hasync X T f g ?_
    rcases h with h | h
    · left; cases f <;> cases g <;> simp_all [outputs, pairFiles]
    · exact .inr h
  | predictAsync X Y =>
    rcases h with h | h
    · simp [outputs] at h
    · refine happ (happ (hck _) keepX_tidy) ?_
      intro a ha
      simp only [List.mem_cons, List.not_mem_nil, or_false] at ha
      rcases ha with rfl | rfl
      · exact h 2
      · trivial
  | makeHdf5 f =>
    rcases h with h | h
    · simp [outputs] at h
    · intro a ha
      simp only [FCall.steps, List.mem_cons, List.not_mem_nil, or_false] at ha
      rcases ha with rfl | rfl
      · trivial
      · exact h 1
  | normalizeHdf5 f =>
    rcases h with h | h
    · simp [outputs] at h
    · intro a ha
      simp only [FCall.steps, List.mem_cons, List.not_mem_nil, or_false] at ha
      rcases ha with rfl | rfl
      · exact h 0
      · trivial
  | remove f =>
    intro a ha
    simp only [FCall.steps, List.mem_cons, List.not_mem_nil, or_false] at ha
    rcases ha with rfl; trivial
  | del =>
    intro a ha
    simp only [FCall.steps, List.mem_cons, List.not_mem_nil, or_false] at ha
    rcases ha with rfl; trivial

/-- **C72 (partial)** "Deleting the model closes every file its calls opened."  Holds for every history in which no call that writes a
file or reads stored matrices meets a data-dependent exception; calls that only read data may fail in any way, and any call may fail
because of clashing handles. -/
theorem C72_closed_partial (disk : String → Bool) (hist : List (FCall × (Nat → Option PyErr)))
    (h : ∀ p ∈ hist, (outputs p.1 = [] ∧ corrs p.1 = []) ∨ ∀ k, p.2 k = none) :
    ((FState.mk disk [] []).run (hist ++ [(.del, fine)])).2.handles = [] := by
  have key : ∀ (hist : List (FCall × (Nat → Option PyErr))) (s : FState), s.stray = [] →
      (∀ p ∈ hist, (outputs p.1 = [] ∧ corrs p.1 = []) ∨ ∀ k, p.2 k = none) → (s.run (hist ++ [(.del, fine)])).2.handles = [] := by
    intro hist
    induction hist with
    | nil =>
      intro s hs _
      simp [FState.run, FState.call, FCall.steps, FState.acts, FState.act, FState.handles, hs]
    | cons p hist ih =>
      intro s hs h
      refine ih (s.call p.1 p.2).2 ?_ (fun q hq => h q (by simp [hq]))
      rw [FState.call, acts_stray (steps_tidy (h p (by simp))), hs]
  exact key hist _ rfl h

example : ∀ p ∈ [(FCall.predict (some "X") none, fun k => if k = 1 then some PyErr.assertion else none), (.predict (some "X") (some "Y"), fine),
    (.error (some "T") (some "Y"), fine), (.predict (some "X") (some "Y"), fine)], (outputs p.1 = [] ∧ corrs p.1 = []) ∨ ∀ k, p.2 k = none := by
  intro p hp
  simp only [List.mem_cons, List.not_mem_nil, or_false] at hp
  rcases hp with rfl | rfl | rfl | rfl
  · exact .inl ⟨rfl, rfl⟩
  all_goals exact .inr fun _ => rfl

/-- **C72 (refuted)** `project("X", "H", istart=1)` raises in its loop (as `C45_istart_raises`) and leaves "H" open for good: after the
model is deleted, `project("X", "H")` of a new model and `make_hdf5(…, "H")` raise ValueError, although the data are fine. -/
theorem C72_closed_refuted :
    exTrained.hProject QEnv.env hFiles (.path "X") .file 1 none = .error .valueError ∧
    (∃ H, exTrained.hProject QEnv.env hFiles (.path "X") .file 0 none = .ok H) ∧
    ((FState.mk (fun f => (hFiles f).isSome) [] []).run
      [(.project (some "X") (some "H"), fun k => if k = 3 then some .valueError else none), (.del, fine), (.project (some "X") (some "H"), fine),
        (.makeHdf5 "H", fine)]).1 = [.error .valueError, .ok (), .error .valueError, .error .valueError] :=
  ⟨by decide +kernel, ⟨⟨2, [[1, 1], [0, 2], [2, 4]]⟩, by decide +kernel⟩, by decide +kernel⟩

/-- **C72 (refuted)** "The number of open files does not grow with the number of calls": `n` predictions leave `n` handles open. -/
theorem C72_growth_refuted (disk : String → Bool) (f : String) (hf : disk f = true) (n : Nat) :
    (∀ r ∈ ((FState.mk disk [] []).run (List.replicate n (.predict (some f) none, fine))).1, r = .ok ()) ∧
    ((FState.mk disk [] []).run (List.replicate n (.predict (some f) none, fine))).2.handles.length = n := by
  have key : ∀ (n : Nat) (k : List String),
      (∀ r ∈ ((FState.mk disk k []).run (List.replicate n (.predict (some f) none, fine))).1, r = .ok ()) ∧
      ((FState.mk disk k []).run (List.replicate n (.predict (some f) none, fine))).2.handles.length = n + k.length := by
    intro n
    induction n with
    | zero => intro k; simp [FState.run, FState.handles]
    | succ n ih =>
      intro k
      have hc : (FState.mk disk k []).call (.predict (some f) none) fine = (.ok (), ⟨disk, f :: k, []⟩) := by
        simp [FState.call, FCall.steps, keepX, outActs, fine, FState.acts, FState.act, canOpen_r (s := ⟨disk, k, []⟩) rfl hf]
      obtain ⟨h1, h2⟩ := ih (f :: k)
      simp only [List.replicate_succ, FState.run, hc, List.mem_cons]
      refine ⟨?_, ?_⟩
      · rintro r (rfl | hr)
        · rfl
        · exact h1 r hr
      · rw [h2, List.length_cons]; omega
  have := key n []
  simpa using this

end Hpelm.Props
