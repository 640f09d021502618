import Verif.Spec.Handles

/-!
# Lemmas about open files
-/

namespace Hpelm
open Spec

theorem acts_append (s : FState) (a b : List Act) :
    s.acts (a ++ b) = match s.acts a with
      | (.error e, s') => (.error e, s')
      | (.ok (), s') => s'.acts b := by
  induction a generalizing s with
  | nil => rfl
  | cons x xs ih =>
    simp only [List.cons_append, FState.acts]
    rcases h : s.act x with ⟨_ | _, s'⟩
    · rfl
    · exact ih s'

theorem acts_append_ok {s s' : FState} {a b : List Act} (h : s.acts a = (.ok (), s')) : s.acts (a ++ b) = s'.acts b := by
  rw [acts_append, h]

theorem acts_append_error {s s' : FState} {x : PyErr} {a b : List Act} (h : s.acts a = (.error x, s')) :
    s.acts (a ++ b) = (.error x, s') := by
  rw [acts_append, h]

/-- A file can be read when it exists and all handles on it are for reading. -/
theorem canOpen_r {s : FState} {f : String} (hs : s.stray = []) (hf : s.onDisk f = true) : s.canOpen .r f = .ok () := by
  have : s.handles.any (fun h => h.file == f && Mode.r.clash h.mode) = false := by
    simp [FState.handles, hs, Mode.clash]
  simp [FState.canOpen, this, hf]

/-- A file can be written when no handle on it is open. -/
theorem canOpen_w {s : FState} {m : Mode} {f : String} (hm : m ≠ .r) (hs : s.stray = []) (hf : f ∉ s.kept) : s.canOpen m f = .ok () := by
  have : s.handles.any (fun h => h.file == f && m.clash h.mode) = false := by
    rw [List.any_eq_false]
    intro h hh
    simp only [FState.handles, hs, List.append_nil, List.mem_map] at hh
    obtain ⟨g, hg, rfl⟩ := hh
    have : g ≠ f := fun e => hf (e ▸ hg)
    simp [this]
  simp [FState.canOpen, this, hm]

/-- A file that the model holds open cannot be written. -/
theorem canOpen_kept {s : FState} {m : Mode} {f : String} (hm : m ≠ .r) (hf : f ∈ s.kept) : s.canOpen m f = .error .valueError := by
  have : s.handles.any (fun h => h.file == f && m.clash h.mode) = true := by
    rw [List.any_eq_true]
    refine ⟨⟨f, .r⟩, ?_, ?_⟩
    · simp only [FState.handles, List.mem_append, List.mem_map]
      exact .inl ⟨f, hf, rfl⟩
    · cases m <;> simp_all [Mode.clash]
  simp [FState.canOpen, this]

section
variable {d : String → Bool} {k : List String}

theorem keepX_ok {X : Option String} (hf : ∀ f ∈ X, d f = true) :
    (FState.mk d k []).acts (keepX X none) = (.ok (), ⟨d, X.toList ++ k, []⟩) := by
  cases X with
  | none => rfl
  | some f => simp [keepX, FState.acts, FState.act, canOpen_r (s := ⟨d, k, []⟩) rfl (hf f rfl)]

theorem keepT_ok {T : Option String} (hf : ∀ f ∈ T, d f = true) :
    (FState.mk d k []).acts (keepT T none) = (.ok (), ⟨d, T.toList ++ k, []⟩) := by
  cases T with
  | none => rfl
  | some f => simp [keepT, FState.acts, FState.act, canOpen_r (s := ⟨d, k, []⟩) rfl (hf f rfl)]

/-- Files written by a step exist afterwards. -/
def mark (d : String → Bool) (l : List String) : String → Bool := fun g => d g || l.contains g

theorem mark_nil (d : String → Bool) : mark d [] = d := by
  funext g
  simp [mark]

theorem mark_one (d : String → Bool) (f : String) : (fun g => if g = f then true else d g) = mark d [f] := by
  funext g
  by_cases h : g = f <;> simp [mark, h]

theorem mark_mark (d : String → Bool) (a b : List String) : mark (mark d a) b = mark d (a ++ b) := by
  funext g
  simp [mark, Bool.or_assoc]

theorem mark_same (d : String → Bool) (a : List String) : mark d (a ++ a) = mark d a := by
  funext g
  simp [mark]

theorem writeFile_ok {m : Mode} {f : String} (hm : m ≠ .r) (hf : f ∉ k) :
    (FState.mk d k []).writeFile m f none = (.ok (), ⟨mark d [f], k, []⟩) := by
  simp only [FState.writeFile, canOpen_w (s := ⟨d, k, []⟩) hm rfl hf]
  rw [mark_one]

theorem peek_ok {f : String} {w fin : Bool} (hf : d f = true) : (FState.mk d k []).peek f w fin none = (.ok (), ⟨d, k, []⟩) := by
  simp [FState.peek, canOpen_r (s := ⟨d, k, []⟩) rfl hf]

theorem prepare_ok {f : String} (hf : f ∉ k) : (FState.mk d k []).act (.prepare f none) = (.ok (), ⟨mark d [f], k, []⟩) := by
  simp only [FState.act]
  split
  · rename_i h
    rw [peek_ok h]
    congr 2
    funext g
    by_cases e : g = f
    · simp [mark, e, h]
    · simp [mark, e]
  · exact writeFile_ok (by decide) hf

/-- The files written by `add_data(…, fHH, fHT)`. -/
def pairFiles : Option String → Option String → List String
  | some f, some g => [f, g]
  | _, _ => []

theorem prepareActs_ok {fHH fHT : Option String} (hf : ∀ f ∈ pairFiles fHH fHT, f ∉ k) :
    (FState.mk d k []).acts (prepareActs fHH fHT none none) = (.ok (), ⟨mark d (pairFiles fHH fHT), k, []⟩) := by
  cases fHH with
  | none => simp [prepareActs, pairFiles, FState.acts, mark_nil]
  | some f =>
    cases fHT with
    | none => simp [prepareActs, pairFiles, FState.acts, mark_nil]
    | some g =>
      simp only [prepareActs, FState.acts]
      rw [prepare_ok (hf f (by simp [pairFiles]))]
      simp only
      rw [prepare_ok (hf g (by simp [pairFiles]))]
      simp only [mark_mark]
      rfl

theorem storeActs_ok {fHH fHT : Option String} (hf : ∀ f ∈ pairFiles fHH fHT, f ∉ k) :
    (FState.mk d k []).acts (storeActs fHH fHT none none none) = (.ok (), ⟨mark d (pairFiles fHH fHT), k, []⟩) := by
  cases fHH with
  | none => simp [storeActs, pairFiles, FState.acts, mark_nil]
  | some f =>
    cases fHT with
    | none => simp [storeActs, pairFiles, FState.acts, mark_nil]
    | some g =>
      simp only [storeActs, FState.acts, FState.act]
      rw [writeFile_ok (by decide) (hf f (by simp [pairFiles]))]
      simp only
      rw [writeFile_ok (by decide) (hf g (by simp [pairFiles]))]
      simp only [mark_mark]
      rfl

theorem corrActs_ok {f g : String} (hf : d f = true) (hg : d g = true) :
    (FState.mk d k []).acts (corrActs f g none none none) = (.ok (), ⟨d, k, []⟩) := by
  simp [corrActs, FState.acts, FState.act, peek_ok hf, peek_ok hg]

theorem outActs_ok {Y : Option String} (hf : ∀ f ∈ Y, f ∉ k) :
    (FState.mk d k []).acts (outActs Y none none) = (.ok (), ⟨mark d Y.toList, k, []⟩) := by
  cases Y with
  | none => simp [outActs, mark_nil, FState.acts, FState.act]
  | some f =>
    simp only [outActs, FState.acts, FState.act]
    rw [writeFile_ok (by decide) (hf f rfl)]
    simp only
    rw [writeFile_ok (by decide) (hf f rfl)]
    simp only [mark_mark]
    rw [show [f] ++ [f] = [f] ++ [f] from rfl, mark_same]
    rfl

theorem check_ok {s : FState} {x : Option PyErr} (h : x = none) : s.acts [.check x] = (.ok (), s) := by
  subst h; rfl

end

end Hpelm
