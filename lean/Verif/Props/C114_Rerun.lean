import Verif.Props.C113_Concurrent

/-!
# C114: running the scripts that died once more
-/

set_option linter.unusedSectionVars false

namespace Hpelm.Props
open Hpelm Spec Finset
variable {K : Type} [Field K] [LinearOrder K] [IsStrictOrderedRing K]

section early
variable {M : Type} [AddCommMonoid M]

/-- A process that has not changed a file has contributed nothing. -/
theorem whole_early {c : WCtx M} (hsz : 0 < c.size .hh) {x : WPc M} (h : ¬ Wrote x) (hd : x ≠ .done) (f : FId) : whole c x f = false := by
  cases x with
  | write g v j => cases g <;> cases f <;> simp_all [Wrote, whole, applied] <;> omega
  | release g => cases g <;> cases f <;> simp_all [Wrote]
  | acquire g => cases g <;> cases f <;> simp_all [Wrote, whole, applied]
  | read g => cases g <;> cases f <;> simp_all [Wrote, whole, applied]
  | done => exact absurd rfl hd
  | _ => cases f <;> rfl

/-- The files keep existing, and nobody creates one. -/
theorem existing_cstep {c : WCtx M} {s t : WState M} (hf : ∀ f, s.file f ≠ none) (hc : ∀ p f, s.pc p ≠ .create f) (h : WCStep c s t) :
    (∀ f, t.file f ≠ none) ∧ ∀ p f, t.pc p ≠ .create f := by
  cases h with
  | crash p hp hd =>
    have hfile : (s.crash p).file = s.file := by unfold WState.crash; split <;> rfl
    rw [hfile]
    refine ⟨hf, ?_⟩
    intro q f
    by_cases hq : q = p
    · subst hq
      unfold WState.crash
      split <;> simp
    · rw [crash_pc_ne hq]
      exact hc q f
  | step _ hs =>
    constructor
    · intro g
      cases hs with
      | create p f hp h1 => exact absurd h1 (hc p f)
      | write p f v w j hp h1 hf' hj =>
        simp only [setPc_file, setFile_file]
        split
        · simp
        · exact hf g
      | _ => exact hf g
    · intro q g hq
      have fin : ∀ {p : Nat} {x : WPc M}, (∀ g, x ≠ .create g) → (if q = p then x else s.pc q) = .create g → False := by
        intro p x hx hq
        split at hq
        · exact hx g hq
        · exact hc q g hq
      cases hs with
      | checkYes p f v hp h1 hf => exact fin (by intro g; cases f <;> simp [afterPrepare]) hq
      | checkNo p f hp h1 hf' => exact hf f hf'
      | create p f hp h1 => exact hc p f h1
      | compute p hp h1 => exact fin (by simp) hq
      | acquire p f hp h1 hl => exact fin (by simp) hq
      | read p f v hp h1 hf => exact fin (by simp) hq
      | write p f v w j hp h1 hf hj => exact fin (by simp) hq
      | written p f v j hp h1 hj => exact fin (by simp) hq
      | release p f hp h1 => exact fin (by intro g; cases f <;> simp [afterUpdate]) hq

open Classical in
/-- If processes die only before they change a file, the files hold the contributions of the finished ones. -/
theorem early_holds {c : WCtx M} (hsz : 0 < c.size .hh) {file0 : FId → Option (Nat → M)} (h0 : ∀ f, file0 f ≠ none) {s : WState M}
    (hr : EarlyRuns c (WState.init file0) s) (hd : ∀ p < c.n, s.pc p = .done ∨ s.pc p = .crashed) (f : FId) :
    Holds c file0 s f ((range c.n).filter fun p => s.pc p = .done) := by
  have key : LockInv c s ∧ CellInv c file0 s (fun _ => ∅) ∧ (∀ f, s.file f ≠ none) ∧ ∀ p f, s.pc p ≠ .create f := by
    clear hd
    induction hr with
    | refl => exact ⟨lockInv_init c file0, cellInv_init c file0, h0, by intro p f h; cases h⟩
    | @tail b d _ hs ih =>
      obtain ⟨hl, hC, hf, hc⟩ := ih
      obtain ⟨h1, h2⟩ := hs
      have he := existing_cstep hf hc h1
      refine ⟨lockInv_cstep hl h1, ?_, he⟩
      cases h1 with
      | step _ hs => exact cellInv_step hl hC hs fun ⟨p, f, e, _⟩ => hc p f e
      | crash p hp hdd =>
        have hpc : (b.crash p).pc p = .crashed := by
          unfold WState.crash
          split <;> simp
        have hw : ¬ Wrote (b.pc p) := fun hw => h2 ⟨p, hw, hpc⟩
        have hx : ∀ f v j, b.pc p = .write f v j → j = 0 ∨ c.size f ≤ j := by
          intro f v j hj
          rw [hj] at hw
          cases f with
          | hh => left; simp only [Wrote] at hw; omega
          | ht => exact absurd trivial hw
        have := cellInv_crash hl hC hp hx
        simp only [whole_early hsz hw hdd, Bool.false_eq_true, if_false] at this
        exact this
  obtain ⟨hl, hC, hf, -⟩ := key
  have := (final_sets hl hC hd f rfl).2.2
  rw [Finset.union_empty] at this
  rcases this with ⟨h, -⟩ | h
  · exact absurd h (hf f)
  · exact h

end early

/-- C114.  As in C113 one script runs alone first, then the others run at the same time; now some of them die, but only before they have changed one of
the two files.  The user runs the scripts that died once more, again in any interleaving.  When they have ended, the remaining
scripts succeed, and the file of predictions holds exactly the predictions of the model trained in memory on all the data.

Missing for the full property: scripts that die later, see `C114_rerun_refuted`. -/
theorem C114_rerun_partial (env : Env K) (hl : Lawful env) (hx : env.Exact) (cast : K → K) (hcast : ∀ x, cast x = x) (f : Names) (hd : f.Distinct)
    (lvl : Nat) (hlvl : lvl < 10) (fs : Files K) (h1 : fs f.HH = none) (h2 : fs f.HT = none)
    -- the model
    (model : ELM K) (hc : Consistent model.nnet) (hg : GivenWeights model) (hwc : model.classification ≠ some "wc" → model.wc = none)
    (hsq : model.classification = some "wc" → ∀ x : K, 0 ≤ x → env.sqrt x * env.sqrt x = x) (hnorm : 0 < model.nnet.norm)
    (hin : 0 < model.nnet.inputs) (hout : 0 < model.nnet.outputs) (hpos : 0 < size model.nnet)
    -- the data and the scripts
    (X T : Mat K) (hTw : T.WF) (hhot : model.classification = some "wc" → OneHot T) (first : DataPart K) (parts : List (DataPart K))
    (hparts : ((first :: parts).flatMap fun p => sampleNos X.nrows p.istart p.icount).Perm (List.range X.nrows))
    (hne : ∀ p ∈ first :: parts, sampleNos X.nrows p.istart p.icount ≠ []) (hpl : ∀ p ∈ first :: parts, Plain p.object)
    (o4 o5 : ELM K) (ho4 : Plain o4) (ho5 : Plain o5)
    -- training in memory
    (a a' : ELM K) (gN : a.nnet.neurons = model.nnet.neurons) (gI : a.nnet.inputs = model.nnet.inputs)
    (gO : a.nnet.outputs = model.nnet.outputs) (gn : a.nnet.norm = model.nnet.norm) (rnd : Rnd) (args : List String) (kw : Kwargs K) (r : Option K) (hsel : "V" ∉ args ∧ "CV" ∉ args ∧ "LOO" ∉ args)
    (hb : 0 < kw.batch.getD a.batch) (hw : ∀ ws, kw.w = some ws → ∀ x ∈ ws, 0 ≤ x)
    (htr : a.train env fs rnd (.mat X) (.mat T) args kw = (.ok r, a')) (hcls : a'.classification = model.classification) (hwca : a'.wc = model.wc) :
    ∃ fs1 fs2, step1 cast f X T lvl fs = .ok fs1 ∧ step3 env f model.saved first fs1 = .ok fs2 ∧
      (∃ c, Scripts env f model (size model.nnet) parts fs2 c) ∧ (∃ file0, OnDisk f (size model.nnet) model.nnet.outputs fs2 file0) ∧
      -- the first time
      ∀ c file0 s fs3, Scripts env f model (size model.nnet) parts fs2 c → OnDisk f (size model.nnet) model.nnet.outputs fs2 file0 →
        EarlyRuns c (WState.init file0) s → ∀ ended dead, (ended ++ dead).Perm (List.range parts.length) → (∀ q ∈ ended, s.pc q = .done) →
        (∀ q ∈ dead, s.pc q = .crashed) →
        OnDisk f (size model.nnet) model.nnet.outputs fs3 s.file → fs3 f.X = fs2 f.X → fs3 f.T = fs2 f.T →
        (∃ c2, Scripts env f model (size model.nnet) (chosen parts dead) fs3 c2) ∧
        -- the second time
        ∀ c2 t fs4, Scripts env f model (size model.nnet) (chosen parts dead) fs3 c2 → dead ≠ [] →
          Runs c2 (WState.init s.file) t → (∀ q < c2.n, t.pc q = .done) →
          OnDisk f (size model.nnet) model.nnet.outputs fs4 t.file → fs4 f.X = fs2 f.X → fs4 f.T = fs2 f.T →
          ∃ m last fs' Y, step4 env f model.saved o4 fs4 = .ok m ∧ step5 env f m o5 fs4 = .ok (last, fs') ∧
            a'.predict env fs (.mat X) = .ok Y ∧ fs' f.Y = some ⟨Y, none, none⟩ ∧
            last.error fs' (.path f.T) (.path f.Y) = a'.error fs (.mat T) (.mat Y) := by
  obtain ⟨X1, T1, ea, t1, -, -⟩ := train_ok htr
  have hXT := checkBoth_of_reads (.mat X) (.mat T) t1
  obtain ⟨rfl, rfl⟩ : X1 = X ∧ T1 = T := ⟨congrArg Prod.fst hXT, congrArg Prod.snd hXT⟩
  obtain ⟨H, S, HT, w, p0, hN, p1, p2, p3, p4, -⟩ :=
    train_plain' hx (by rw [hcls]; exact hsq) hsel.1 hsel.2.1 hsel.2.2 hb hTw (by rw [hcls]; exact hhot) hw htr
  obtain ⟨b1, b2, b3, bH⟩ := (project_ok_iff _ _ _ _).1 p1
  have hXc : X1.cols = model.nnet.inputs := by rw [b1, gI]
  have hTc : T1.cols = model.nnet.outputs := by rw [p4, gO]
  have hnn : model.nnet.neurons ≠ [] := by rw [← gN]; exact b3
  have hproj : model.nnet.project env X1 = .ok H := by
    rw [← p1]; unfold NNet.project; rw [gN, gI]
  have hdd := hd
  unfold Names.Distinct at hd
  simp only [List.nodup_cons, List.mem_cons, List.not_mem_nil, or_false, not_or] at hd
  have hLw : size model.nnet = width model.nnet.neurons := (width_size hc).symm
  obtain ⟨fs1, s1, s2, s3, s4⟩ := step1_ok hcast hlvl p0 (by omega : 0 < T1.nrows) (by omega : 0 < X1.cols) (by omega : 0 < T1.cols) hd.1.1 fs
  have f1 : Fed env f.HH f.HT model fs1 [] := .start fs1 (by rw [s4 _ (Ne.symm hd.1.2.1) (Ne.symm hd.2.1.1)]; exact h1)
    (by rw [s4 _ (Ne.symm hd.1.2.2.1) (Ne.symm hd.2.1.2.1)]; exact h2)
  obtain ⟨fs2, u1, u2, u3, u4⟩ := step3_all hx hdd hc hnn hg hwc hsq hpos hout hTw hXc hTc hN p0 hhot hproj [first]
    (fun p hp => hpl p (by rw [List.mem_singleton] at hp; rw [hp]; exact List.mem_cons_self))
    (fun p hp => hne p (by rw [List.mem_singleton] at hp; rw [hp]; exact List.mem_cons_self)) fs1 [] f1 s2 s3
  have u1' : step3 env f model.saved first fs1 = .ok fs2 := by
    rw [List.foldlM_cons] at u1
    obtain ⟨x, hx1, hx2⟩ := bind_ok u1
    injection hx2 with hx2
    rw [hx1, hx2]
  have hpart := fun p (hp : p ∈ parts) => part_hold hx hc hg hwc hsq hnn hTw hXc hTc hN p0 hhot hproj p (hpl p (List.mem_cons_of_mem _ hp))
    (hne p (List.mem_cons_of_mem _ hp)) fs2 u3 u4
  have hdi := fed_disk hx hd.2.2.1.1 hg hsq u2
  refine ⟨fs1, fs2, s1, u1', scripts_exist fun p hp => ?_, ?_, ?_⟩
  · obtain ⟨e, e', S, HT, a1, a2, a3, -⟩ := hpart p hp
    exact ⟨e, e', S, HT, a1, a2, a3⟩
  · have key : (∀ d, fs2 f.HH = some d → d.data.WF ∧ d.data.nrows = size model.nnet ∧ d.data.cols = size model.nnet) ∧
        ∀ d, fs2 f.HT = some d → d.data.WF ∧ d.data.nrows = size model.nnet ∧ d.data.cols = model.nnet.outputs := by
      rcases hdi with ⟨i1, i2, _⟩ | ⟨h5, h5', i1, i2, _, i3⟩
      · rw [i1, i2]; simp
      · rw [i1, i2, hLw]
        exact ⟨fun d h => by injection h with h; subst h; exact ⟨i3.wfS, i3.rowsS, i3.colsS⟩,
          fun d h => by injection h with h; subst h; exact ⟨i3.wfT, i3.rowsT, i3.colsT⟩⟩
    obtain ⟨v, hv⟩ := cells_exist _ _ _ key.1
    obtain ⟨v', hv'⟩ := cells_exist _ _ _ key.2
    exact ⟨fun g => match g with | .hh => v | .ht => v', hv, hv'⟩
  intro c file0 s fs3 hsc hon hr ended dead hall hend hdead hon3 hfX3 hfT3
  have hex : ∀ g, file0 g ≠ none := by
    rcases hdi with ⟨_, _, h⟩ | ⟨h5, h5', i1, i2, _⟩
    · exfalso
      simp only [List.nil_append, List.flatMap_cons, List.flatMap_nil, List.append_nil] at h
      have h0 := hne first List.mem_cons_self
      rw [samplesIn_rowsIn, samplesIn_rowsIn, rowsIn_zip, rowsIn_nos ([], []), List.map_eq_nil_iff] at h
      apply h0
      have hlen : (X1.rows.zip T1.rows).length = X1.nrows := by
        have : X1.rows.length = T1.rows.length := hN
        simp [this, Mat.nrows]
      rw [hlen] at h
      exact h
    · intro g hg0
      cases g with
      | hh => have := hon.1; rw [i1, hg0] at this; exact this
      | ht => have := hon.2; rw [i2, hg0] at this; exact this
  have hnd : (ended ++ dead).Nodup := hall.nodup_iff.2 List.nodup_range
  have hlt : ∀ q ∈ ended ++ dead, q < parts.length := fun q hq => List.mem_range.1 (hall.mem_iff.1 hq)
  have hmem : ∀ q < parts.length, q ∈ ended ++ dead := fun q hq => hall.mem_iff.2 (List.mem_range.2 hq)
  have hover : ∀ q < c.n, s.pc q = .done ∨ s.pc q = .crashed := by
    intro q hq
    rw [hsc.count] at hq
    rcases List.mem_append.1 (hmem q hq) with h | h
    · exact Or.inl (hend q h)
    · exact Or.inr (hdead q h)
  have hsz : 0 < c.size .hh := by rw [hsc.sizeHH]; exact Nat.mul_pos hpos hpos
  classical
  have hset : ((range c.n).filter fun p => s.pc p = .done) = ended.toFinset := by
    ext q
    rw [Finset.mem_filter, Finset.mem_range, List.mem_toFinset, hsc.count]
    constructor
    · rintro ⟨h1, h2⟩
      rcases List.mem_append.1 (hmem q h1) with h | h
      · exact h
      · rw [hdead q h] at h2; cases h2
    · intro h
      exact ⟨hlt q (List.mem_append_left _ h), hend q h⟩
  have hh1 : ∀ g, Holds c file0 s g ended.toFinset := fun g => by
    rw [← hset]
    exact early_holds hsz hex hr hover g
  rw [hLw] at hsc hon hon3
  have hd3 := scripts_disk_on (by rw [← hLw]; exact hpos) hsc hpart hdi hon ended (List.nodup_append.1 hnd).1
    (fun q hq => hlt q (List.mem_append_left _ hq)) hh1 hon3
  have hsub : ∀ p ∈ chosen parts dead, p ∈ parts := by
    intro p hp
    obtain ⟨q, _, hq⟩ := List.mem_filterMap.1 hp
    exact List.mem_of_getElem? hq
  have hpart3 := fun p (hp : p ∈ chosen parts dead) => part_hold hx hc hg hwc hsq hnn hTw hXc hTc hN p0 hhot hproj p
    (hpl p (List.mem_cons_of_mem _ (hsub p hp))) (hne p (List.mem_cons_of_mem _ (hsub p hp))) fs3 (by rw [hfX3]; exact u3) (by rw [hfT3]; exact u4)
  refine ⟨scripts_exist fun p hp => ?_, ?_⟩
  · obtain ⟨e, e', S, HT, a1, a2, a3, -⟩ := hpart3 p hp
    exact ⟨e, e', S, HT, a1, a2, a3⟩
  intro c2 t fs4 hsc2 hne2 hr2 hdone hon4 hfX hfT
  have hex2 : ∀ g, s.file g ≠ none := by
    intro g
    obtain ⟨v, hv, -⟩ := hh1 g
    rw [hv]
    simp
  have hn2 : 0 < c2.n := by
    rw [hsc2.count]
    obtain ⟨q, hq⟩ := List.exists_mem_of_ne_nil _ hne2
    have hq' := hlt q (List.mem_append_right _ hq)
    apply List.length_pos_of_mem (a := parts[q])
    exact List.mem_filterMap.2 ⟨q, hq, List.getElem?_eq_getElem hq'⟩
  have hh2 := fun g => C47_existing_files c2 s.file hex2 t hr2 hn2 hdone g
  rw [hLw] at hsc2 hon4
  have hd4 := scripts_disk (by rw [← hLw]; exact hpos) hsc2 hpart3 hd3 hon3 hh2 hon4
  have hperm := parts_perm hN (first :: parts) hparts
  have hch : ∀ {β : Type} (pairs : DataPart K → List β), (parts.flatMap pairs).Perm ((chosen parts ended).flatMap pairs ++ (chosen parts dead).flatMap pairs) := by
    intro β pairs
    rw [← List.flatMap_append]
    apply List.Perm.flatMap_right
    have h1 : chosen parts ended ++ chosen parts dead = chosen parts (ended ++ dead) := (List.filterMap_append ..).symm
    have h2 : (chosen parts (ended ++ dead)).Perm (chosen parts (List.range parts.length)) := hall.filterMap _
    rw [h1]
    rw [chosen_all] at h2
    exact h2.symm
  have hfull := fun P' => List.Perm.append_left P' (hch fun p => (samplesIn X1 p.istart p.icount).rows.zip (samplesIn T1 p.istart p.icount).rows)
  rw [List.flatMap_cons] at hperm
  obtain ⟨m, last, fs', Y, k1, k2, k3, k4, k5, -⟩ := after_step3 env hl hx f hdd fs model hc hsq hnorm hout X1 T1 hTw hhot o4 o5 ho4 ho5 a a' gN gI gO gn rnd args kw r hsel
    hb hw htr hcls hwca fs4 _ (hperm.trans (hfull _)) (by simpa using hd4) (by rw [hfX]; exact u3) (by rw [hfT]; exact u4)
  exact ⟨m, last, fs', Y, k1, k2, k3, k4, k5⟩

/-- C114 is false for a script that dies later: script 0 dies when it has changed both files and has not yet released the second one; script 1 ends;
script 0 is run once more.  Nothing is reported, its samples count twice, and the result is another model: its training error is 4677/6050, that of the
model trained in memory is 39/50 (`C113_all_at_once_refuted`). -/
theorem C114_rerun_refuted : ∃ c c2 s t,
    Scripts QEnv.env exNames (exModel 1 2 none none) 2 exScripts exDisk c ∧ Relation.ReflTransGen (WCStep c) (WState.init fun _ => none) s ∧
      s.pc 0 = .crashed ∧ s.pc 1 = .done ∧ OnDisk exNames 2 1 (exAfter s) s.file ∧
      Scripts QEnv.env exNames (exModel 1 2 none none) 2 (chosen exScripts [0]) exDisk c2 ∧ Runs c2 (WState.init s.file) t ∧ t.pc 0 = .done ∧
      OnDisk exNames 2 1 (exAfter t) t.file ∧ exFinish (exAfter t) = .ok (4677/6050) := by
  have hp : ∀ p ∈ exScripts, (partMats QEnv.env exNames (exModel 1 2 none none).saved p exDisk).isOk = true := by decide +kernel
  have hok : ∀ p ∈ exScripts, ∃ r, partMats QEnv.env exNames (exModel 1 2 none none).saved p exDisk = .ok r := by
    intro p hpm
    have := hp p hpm
    cases hq : partMats QEnv.env exNames (exModel 1 2 none none).saved p exDisk with
    | ok r => exact ⟨r, rfl⟩
    | error x => rw [hq] at this; cases this
  have h : ((crashSchedule (scriptCtx QEnv.env exNames (exModel 1 2 none none) 2 exScripts exDisk) (List.replicate 18 0) (List.replicate 17 1)
        (WState.init fun _ => none)).bind fun s =>
      (schedule (scriptCtx QEnv.env exNames (exModel 1 2 none none) 2 (chosen exScripts [0]) exDisk) (List.replicate 17 0) (WState.init s.file)).map fun t =>
        (s.pc 0 matches .crashed, isDone (s.pc 1), isDone (t.pc 0), exFinish (exAfter t))) = some (true, true, true, .ok (4677/6050)) := by decide +kernel
  cases h1 : crashSchedule (scriptCtx QEnv.env exNames (exModel 1 2 none none) 2 exScripts exDisk) (List.replicate 18 0) (List.replicate 17 1)
      (WState.init fun _ => none) with
  | none => rw [h1] at h; cases h
  | some s =>
    rw [h1, Option.bind_some] at h
    obtain ⟨t, h2, h3⟩ := Option.map_eq_some_iff.1 h
    simp only [Prod.mk.injEq, isDone_iff] at h3
    refine ⟨_, _, s, t, scriptCtx_ok hok, crashSchedule_sound (by decide) h1, ?_, h3.2.1, ⟨sameCells_fileOf 2 2 _, sameCells_fileOf 2 1 _⟩,
      scriptCtx_ok fun p hpm => hok p ?_, schedule_sound h2, h3.2.2.1, ⟨sameCells_fileOf 2 2 _, sameCells_fileOf 2 1 _⟩, h3.2.2.2⟩
    · have := h3.1
      revert this
      cases s.pc 0 <;> simp
    · obtain ⟨q, _, hq⟩ := List.mem_filterMap.1 hpm
      exact List.mem_of_getElem? hq

section finish
variable {M : Type} [AddCommMonoid M]

theorem crashed_stays {c : WCtx M} {s t : WState M} (h : WStep c s t) {p : Nat} (hp : s.pc p = .crashed) : t.pc p = .crashed := by
  have key : ∀ {q : Nat} {x y : WPc M}, s.pc q = y → y ≠ .crashed → (if p = q then x else s.pc p) = .crashed := by
    intro q x y h1 h2
    rw [if_neg, hp]
    rintro rfl
    rw [hp] at h1
    exact h2 h1.symm
  cases h with
  | checkYes q f v hp h1 hf => exact key h1 (by simp)
  | checkNo q f hp h1 hf => exact key h1 (by simp)
  | create q f hp h1 => exact key h1 (by simp)
  | compute q hp h1 => exact key h1 (by simp)
  | acquire q f hp h1 hl => exact key h1 (by simp)
  | read q f v hp h1 hf => exact key h1 (by simp)
  | write q f v w j hp h1 hf hj => exact key h1 (by simp)
  | written q f v j hp h1 hj => exact key h1 (by simp)
  | release q f hp h1 => exact key h1 (by simp)

theorem runs_early {c : WCtx M} {s t : WState M} (h : Runs c s t) : EarlyRuns c s t := by
  induction h with
  | refl => exact .refl
  | tail _ hs ih =>
    refine ih.tail ⟨.step _ _ hs, ?_⟩
    rintro ⟨p, e1, e2⟩
    rw [step_crashed hs e2] at e1
    exact e1

/-- After any crashes the others can always end. -/
theorem cruns_finish (c : WCtx M) (file0 : FId → Option (Nat → M)) (s : WState M) (h : Relation.ReflTransGen (WCStep c) (WState.init file0) s) :
    ∃ t, Runs c s t ∧ ∀ p < c.n, t.pc p = .done ∨ t.pc p = .crashed := by
  obtain ⟨n, hn⟩ : ∃ n, n = ∑ p ∈ range c.n, rank c (s.pc p) := ⟨_, rfl⟩
  induction n using Nat.strong_induction_on generalizing s with
  | _ n ih =>
    by_cases hd : ∀ p < c.n, s.pc p = .done ∨ s.pc p = .crashed
    · exact ⟨s, .refl, hd⟩
    · push Not at hd
      obtain ⟨p, hp, hpd, hpc⟩ := hd
      obtain ⟨t, ht⟩ := C47_no_deadlock c file0 s h p hp hpd hpc
      have := rank_step ht
      obtain ⟨u, hu, hud⟩ := ih (∑ p ∈ range c.n, rank c (t.pc p)) (by omega) t (h.tail (.step _ _ ht)) rfl
      exact ⟨u, .head ht hu, hud⟩

end finish

/-- The hypotheses of `C114_rerun_partial` are met: three scripts, the first one alone; of the other two one dies at once and is run again. -/
example : ∃ a', exTrained.train (lawEnv QEnv.env) (fun _ => none) ⟨fun _ => []⟩ (.mat ⟨2, [[1, 0], [0, 1], [2, 3], [1, 1]]⟩)
      (.mat ⟨1, [[1], [2], [3], [0]]⟩) [] {} = (.ok none, a') ∧
    ∃ fs4 m last fs' Y, step4 (lawEnv QEnv.env) exNames exTrained.saved (exModel 1 2 none none) fs4 = .ok m ∧
        step5 (lawEnv QEnv.env) exNames m (exModel 1 2 none none) fs4 = .ok (last, fs') ∧
        a'.predict (lawEnv QEnv.env) (fun _ => none) (.mat ⟨2, [[1, 0], [0, 1], [2, 3], [1, 1]]⟩) = .ok Y ∧ fs' "y" = some ⟨Y, none, none⟩ := by
  obtain ⟨a', h⟩ := train_plain_total (env := lawEnv QEnv.env) (fs := fun _ => none) (rnd := ⟨fun _ => []⟩) (e := exTrained)
    (X := ⟨2, [[1, 0], [0, 1], [2, 3], [1, 1]]⟩) (T := ⟨1, [[1], [2], [3], [0]]⟩) (args := []) (kw := {}) (lawEnv_exact _) (by simp) (by simp) (by simp)
    (by decide) (by simp) rfl rfl rfl (by decide) rfl exTrained_consistent rfl
  refine ⟨a', h, ?_⟩
  obtain ⟨X1, T1, ea, -, a2, a3⟩ := train_ok h
  have hea : ea.classification = none ∧ ea.wc = none := by
    have : (exTrained.parseArgs [] {}).1 = ea := congrArg Prod.fst a2
    rw [← this]
    exact ⟨rfl, rfl⟩
  obtain ⟨_, e2, n, c1, c2, c3⟩ := trainBody_plain (by simp) (by simp) (by simp) a3
  obtain ⟨c, rfl⟩ := addData_fields c1
  have hcw : a'.classification = none ∧ a'.wc = none := by
    rw [c3]
    simp [ELM.autoWc, hea]
  obtain ⟨fs1, fs2, -, hs3, ⟨c, hc⟩, ⟨file0, hfile⟩, hall⟩ := C114_rerun_partial (lawEnv QEnv.env) (lawEnv_lawful _) (lawEnv_exact _) id (fun _ => rfl) exNames
    (by unfold Names.Distinct exNames; decide) 9 (by decide) (fun _ => none) rfl rfl exTrained exTrained_consistent (fun h => by cases h) (fun _ => rfl)
    (fun h => by cases h) (by decide +kernel) (by decide) (by decide) (by decide) ⟨2, [[1, 0], [0, 1], [2, 3], [1, 1]]⟩ ⟨1, [[1], [2], [3], [0]]⟩
    (by simp [Mat.WF]) (fun h => by cases h) ⟨exModel 1 1 none none, 2, none⟩ [⟨exModel 1 3 none none, 0, some 1⟩, ⟨exModel 1 2 none none, 1, some 1⟩]
    (by decide) (by simp [sampleNos, Mat.nrows]) (by simp [Plain, exModel]) (exModel 1 2 none none) (exModel 1 2 none none)
    ⟨rfl, by decide⟩ ⟨rfl, by decide⟩ exTrained a' rfl rfl rfl rfl ⟨fun _ => []⟩ [] {} none (by simp) (by decide) (by rintro _ ⟨⟩) h
    hcw.1 hcw.2
  have hn : c.n = 2 := hc.count
  obtain ⟨s, hs, hov⟩ := cruns_finish c file0 ((WState.init file0).crash 0) (.single (.crash _ 0 (by omega) (by simp [WState.init])))
  have h0 : s.pc 0 = .crashed := by
    clear hov
    induction hs with
    | refl => rfl
    | tail _ hs ih => exact crashed_stays hs ih
  have h1 : s.pc 1 = .done := by
    rcases hov 1 (by omega) with h | h
    · exact h
    · exfalso
      clear hov h0
      induction hs with
      | refl => cases h
      | tail _ hs ih => exact ih (step_crashed hs h)
  have her : EarlyRuns c (WState.init file0) s := by
    refine .head ⟨.crash _ 0 (by omega) (by simp [WState.init]), ?_⟩ (runs_early hs)
    rintro ⟨p, e, -⟩
    exact e
  obtain ⟨fs3, e1, e2, e3⟩ : ∃ fs3 : Files ℚ, OnDisk exNames 2 1 fs3 s.file ∧ fs3 "x" = fs2 "x" ∧ fs3 "t" = fs2 "t" :=
    ⟨fun g => if g = "hh" then fileOf 2 2 (s.file .hh) else if g = "ht" then fileOf 2 1 (s.file .ht) else fs2 g,
      ⟨sameCells_fileOf 2 2 _, sameCells_fileOf 2 1 _⟩, rfl, rfl⟩
  obtain ⟨⟨c2, hc2⟩, hfin⟩ := hall c file0 s fs3 hc hfile her [1] [0] (by decide) (by simpa using h1) (by simpa using h0) e1 e2 e3
  obtain ⟨t, ht, hd⟩ := runs_finish c2 s.file _ .refl
  obtain ⟨fs4, e1, e2, e3⟩ : ∃ fs4 : Files ℚ, OnDisk exNames 2 1 fs4 t.file ∧ fs4 "x" = fs2 "x" ∧ fs4 "t" = fs2 "t" :=
    ⟨fun g => if g = "hh" then fileOf 2 2 (t.file .hh) else if g = "ht" then fileOf 2 1 (t.file .ht) else fs2 g,
      ⟨sameCells_fileOf 2 2 _, sameCells_fileOf 2 1 _⟩, rfl, rfl⟩
  obtain ⟨m, last, fs', Y, k1, k2, k3, k4, -⟩ := hfin c2 t fs4 hc2 (by simp) ht hd e1 e2 e3
  exact ⟨fs4, m, last, fs', Y, k1, k2, k3, k4⟩

end Hpelm.Props
