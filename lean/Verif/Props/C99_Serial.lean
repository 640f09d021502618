import Verif.Props.C47_C48_Writers
import Verif.Lemmas.Serial
import Verif.Lemmas.Rounding
import Verif.Lemmas.FloatRound
import Verif.Spec.Rounding

/-!
# C99: several processes adding to the same files are as good as one after another

Nothing is assumed of the addition, so the theorems hold for the rounded addition of the computer, where the order of the summands
matters.
-/

namespace Hpelm.Props
open Hpelm Spec
variable {M : Type} [Add M]

theorem untorn_ser {c : WCtx M} {file0 : FId → Option (Nat → M)} {s : WState M} (h : UntornRuns c (WState.init file0) s) :
    LockInv c s ∧ ∃ O, SerInv c file0 s O := by
  induction h with
  | refl => exact ⟨lockInv_init c file0, _, serInv_init c file0⟩
  | tail _ hs ih =>
    obtain ⟨hl, O, hO⟩ := ih
    obtain ⟨h1, h2, h3⟩ := hs
    refine ⟨lockInv_cstep hl h1, ?_⟩
    cases h1 with
    | step _ hs => exact serInv_step hl hO hs h2
    | crash p hp hd =>
      refine serInv_crash hl hO hp ?_
      intro f v j hj
      by_contra hne
      apply h3
      refine ⟨p, f, v, j, hj, by omega, by omega, ?_⟩
      unfold WState.crash
      split <;> simp

/-- C99: however the steps of the processes interleave, and whoever dies outside the writing of a file, when all processes are done or
dead each file holds exactly (to the last bit) what a list of processes, one after another, would have left in it: each process occurs at
most once, every process that is done occurs, and a process that occurs for the second file occurs for the first.  As in C47, no process
creates a file that another one has created in the meantime. -/
theorem C99_one_after_another (c : WCtx M) (file0 : FId → Option (Nat → M)) (s : WState M) (hr : UntornRuns c (WState.init file0) s)
    (hd : ∀ p < c.n, s.pc p = .done ∨ s.pc p = .crashed) :
    ∃ order : FId → List Nat, (∀ p ∈ order .ht, p ∈ order .hh) ∧
      ∀ f, (order f).Nodup ∧ (∀ p ∈ order f, p < c.n) ∧ (∀ p < c.n, s.pc p = .done → p ∈ order f) ∧
        (s.file f = none ∧ order f = [] ∨ HoldsInOrder c file0 s f (order f)) := by
  obtain ⟨hl, O, h⟩ := untorn_ser hr
  refine ⟨O, h.nested, fun f => ⟨h.nodup f, fun p hp => (h.mem f p hp).1, ?_, ?_⟩⟩
  · intro p _ hp
    exact h.wrote f p (by rw [hp]; cases f <;> trivial)
  · cases hf : s.file f with
    | none => exact .inl ⟨rfl, (h.absent f hf).2⟩
    | some w =>
      refine .inr ⟨w, hf, h.free f w hf ?_⟩
      intro p v j hp
      by_cases hpn : p < c.n
      · rcases hd p hpn with e | e <;> rw [e] at hp <;> cases hp
      · rw [hl.outside p (by omega)] at hp
        cases hp

/-- C99 without crashes, on files that exist at the start: every execution leaves in each file what all the processes, one after another
in some order, would have left. -/
theorem C99_permutation (c : WCtx M) (file0 : FId → Option (Nat → M)) (h0 : ∀ f, file0 f ≠ none) (s : WState M)
    (hr : Runs c (WState.init file0) s) (hn : 0 < c.n) (hd : ∀ p < c.n, s.pc p = .done) (f : FId) :
    ∃ order, order.Perm (List.range c.n) ∧ HoldsInOrder c file0 s f order := by
  have hu := clean_untorn (existing_clean h0 hr)
  obtain ⟨order, _, h⟩ := C99_one_after_another c file0 s hu fun p hp => .inl (hd p hp)
  obtain ⟨h1, h2, h3, h4⟩ := h f
  refine ⟨order f, ?_, ?_⟩
  · rw [List.perm_ext_iff_of_nodup h1 List.nodup_range]
    intro p
    rw [List.mem_range]
    exact ⟨h2 p, fun hp => h3 p hp (hd p hp)⟩
  · rcases h4 with ⟨a, _⟩ | h4
    · exact absurd a ((untorn_ser hu).1.exist 0 f (by rw [hd 0 hn]; cases f <;> trivial))
    · exact h4

/-! ## Every order happens -/

/-- `t` comes from `s` by steps of process `p` alone. -/
structure Alone (c : WCtx M) (p : Nat) (s t : WState M) : Prop where
  runs : Runs c s t
  pcs : ∀ q ≠ p, t.pc q = s.pc q

theorem Alone.trans {c : WCtx M} {p : Nat} {s t u : WState M} (h : Alone c p s t) (h' : Alone c p t u) : Alone c p s u :=
  ⟨h.runs.trans h'.runs, fun q hq => by rw [h'.pcs q hq, h.pcs q hq]⟩

theorem alone_write {c : WCtx M} {p : Nat} (hp : p < c.n) {f : FId} {v : Nat → M} {s : WState M} (h1 : s.pc p = .write f v 0)
    (hf : s.file f = some v) (k : Nat) (hk : k ≤ c.size f) :
    ∃ t, Alone c p s t ∧ t.pc p = .write f v k ∧ t.lock = s.lock ∧ (∀ g ≠ f, t.file g = s.file g) ∧
      t.file f = some fun i => if i < k then v i + c.contrib p f i else v i := by
  induction k with
  | zero => exact ⟨s, ⟨.refl, fun _ _ => rfl⟩, h1, rfl, fun _ _ => rfl, by simpa using hf⟩
  | succ k ih =>
    obtain ⟨t, a1, a2, a3, a4, a5⟩ := ih (by omega)
    refine ⟨_, ⟨a1.runs.tail (.write t p f v _ k hp a2 a5 (by omega)), ?_⟩, ?_, ?_, ?_, ?_⟩
    · intro q hq; simp [hq, a1.pcs q hq]
    · simp
    · exact a3
    · intro g hg; simp [hg, a4 g hg]
    · simp only [setPc_file, setFile_file, if_true, Option.some.injEq]
      funext i
      by_cases e : i = k
      · subst e; simp
      · rw [if_neg e]
        by_cases hlt : i < k
        · rw [if_pos hlt, if_pos (by omega)]
        · rw [if_neg hlt, if_neg (by omega)]

/-- One process takes the lock of a file, adds its contribution and lets go. -/
theorem alone_update {c : WCtx M} {p : Nat} (hp : p < c.n) {f : FId} {v : Nat → M} {s : WState M} (h1 : s.pc p = .acquire f)
    (hf : s.file f = some v) (hlk : s.lock f = none) :
    ∃ t, Alone c p s t ∧ t.pc p = afterUpdate f ∧ (∀ g, t.lock g = s.lock g) ∧ (∀ g ≠ f, t.file g = s.file g) ∧
      ∃ w, t.file f = some w ∧ ∀ i < c.size f, w i = v i + c.contrib p f i := by
  have b1 := WStep.acquire s p f hp h1 hlk
  set s1 := (s.setLock f (some p)).setPc p (.read f) with e1
  have c1 : s1.pc p = .read f := by simp [e1]
  have d1 : s1.file f = some v := hf
  have b2 := WStep.read s1 p f v hp c1 d1
  set s2 := s1.setPc p (.write f v 0) with e2
  obtain ⟨t, a1, a2, a3, a4, a5⟩ := alone_write hp (s := s2) (v := v) (f := f) (by simp [e2]) (by exact d1) (c.size f) le_rfl
  have b3 := WStep.written t p f v _ hp a2 le_rfl
  set s3 := t.setPc p (.release f) with e3
  have b4 := WStep.release s3 p f hp (by simp [e3])
  refine ⟨_, ⟨((((Relation.ReflTransGen.refl.tail b1).tail b2).trans a1.runs).tail b3).tail b4, ?_⟩, ?_, ?_, ?_, ?_⟩
  · intro q hq; simp [hq, e3, a1.pcs q hq, e2, e1]
  · simp
  · intro g
    by_cases e : g = f
    · subst e; simp [WState.setLock, WState.setPc, hlk]
    · simp [WState.setLock, WState.setPc, e, e3, a3, e2, e1]
  · intro g hg; simp [WState.setLock, WState.setPc, e3, a4 g hg, e2, e1]
  · refine ⟨_, a5, ?_⟩
    intro i hi
    simp [hi]

/-- One process runs from the beginning to the end. -/
theorem alone_run {c : WCtx M} {p : Nat} (hp : p < c.n) {v : FId → Nat → M} {s : WState M} (h1 : s.pc p = .check .hh)
    (hf : ∀ f, s.file f = some (v f)) (hlk : ∀ f, s.lock f = none) :
    ∃ t, Alone c p s t ∧ t.pc p = .done ∧ (∀ f, t.lock f = none) ∧
      ∃ w : FId → Nat → M, (∀ f, t.file f = some (w f)) ∧ ∀ f, ∀ i < c.size f, w f i = v f i + c.contrib p f i := by
  have b1 := WStep.checkYes s p .hh _ hp h1 (hf .hh)
  set s1 := s.setPc p (afterPrepare .hh) with e1
  have b2 := WStep.checkYes s1 p .ht _ hp (by simp [e1, afterPrepare]) (hf .ht)
  set s2 := s1.setPc p (afterPrepare .ht) with e2
  have b3 := WStep.compute s2 p hp (by simp [e2, afterPrepare])
  set s3 := s2.setPc p (.acquire .hh) with e3
  have al : Alone c p s s3 := ⟨((Relation.ReflTransGen.refl.tail b1).tail b2).tail b3, fun q hq => by simp [e3, e2, e1, hq]⟩
  obtain ⟨t, a1, a2, a3, a4, w, a5, a6⟩ := alone_update hp (s := s3) (f := .hh) (v := v .hh) (by simp [e3]) (hf .hh) (hlk .hh)
  obtain ⟨t', a1', a2', a3', a4', w', a5', a6'⟩ := alone_update hp (s := t) (f := .ht) (v := v .ht) a2
    (by rw [a4 .ht (by simp)]; exact hf .ht) (by rw [a3]; exact hlk .ht)
  refine ⟨t', (al.trans a1).trans a1', a2', fun f => by rw [a3', a3]; exact hlk f, fun f => match f with | .hh => w | .ht => w', ?_, ?_⟩
  · intro f
    cases f with
    | hh => rw [a4' .hh (by simp)]; exact a5
    | ht => exact a5'
  · intro f
    cases f with
    | hh => exact a6
    | ht => exact a6'

/-- Conversely every order is the outcome of some execution (on files that exist at the start). -/
theorem C99_every_order (c : WCtx M) (file0 : FId → Option (Nat → M)) (h0 : ∀ f, file0 f ≠ none) (order : List Nat)
    (ho : order.Perm (List.range c.n)) :
    ∃ s, Runs c (WState.init file0) s ∧ (∀ p < c.n, s.pc p = .done) ∧ ∀ f, HoldsInOrder c file0 s f order := by
  have key : ∀ o : List Nat, o.Nodup → (∀ p ∈ o, p < c.n) →
      ∃ s, Runs c (WState.init file0) s ∧ (∀ p ∈ o, s.pc p = .done) ∧ (∀ p ∉ o, s.pc p = .check .hh) ∧ (∀ f, s.lock f = none) ∧
        ∃ w : FId → Nat → M, (∀ f, s.file f = some (w f)) ∧ ∀ f, ∀ i < c.size f, w f i = oneByOne c file0 f o i := by
    intro o
    induction o using List.reverseRecOn with
    | nil =>
      intro _ _
      refine ⟨WState.init file0, .refl, by simp, fun p _ => rfl, fun f => rfl, fun f => base c file0 f, ?_, fun f i _ => rfl⟩
      intro f
      obtain ⟨v, hv⟩ := Option.ne_none_iff_exists'.1 (h0 f)
      simp [WState.init, base, hv]
    | append_singleton o p ih =>
      intro hnd hm
      rw [List.nodup_append] at hnd
      obtain ⟨n1, _, n3⟩ := hnd
      have hpo : p ∉ o := fun h => n3 p h p (by simp) rfl
      obtain ⟨s, r1, r2, r3, r4, w, r5, r6⟩ := ih n1 fun q hq => hm q (List.mem_append_left _ hq)
      obtain ⟨t, a1, a2, a3, w', a4, a5⟩ := alone_run (hm p (by simp)) (r3 p hpo) r5 r4
      refine ⟨t, r1.trans a1.runs, ?_, ?_, a3, w', a4, ?_⟩
      · intro q hq
        by_cases e : q = p
        · rw [e]; exact a2
        · rw [a1.pcs q e]
          simp only [List.mem_append, List.mem_singleton, e, or_false] at hq
          exact r2 q hq
      · intro q hq
        simp only [List.mem_append, List.mem_singleton, not_or] at hq
        rw [a1.pcs q hq.2]
        exact r3 q hq.1
      · intro f i hi
        rw [oneByOne_snoc, a5 f i hi, r6 f i hi]
  obtain ⟨s, r1, r2, _, _, w, r5, r6⟩ := key order (ho.nodup_iff.2 List.nodup_range) fun p hp => List.mem_range.1 (ho.mem_iff.1 hp)
  exact ⟨s, r1, fun p hp => r2 p (ho.mem_iff.2 (List.mem_range.2 hp)), fun f => ⟨w f, r5 f, r6 f⟩⟩

/-! ## With rounding -/

section rounding
variable {K : Type} [Field K] [LinearOrder K] [IsStrictOrderedRing K]

/-- The addition of the computer: the exact sum, rounded. -/
abbrev roundedAdd (r : K → K) : Add K := ⟨fun a b => r (a + b)⟩

theorem oneByOne_rounded {r : K → K} {u : K} (hr : Rounding r u) (c : WCtx K) (file0 : FId → Option (Nat → K)) (f : FId)
    (o : List Nat) (i : Nat) :
    |@oneByOne K (roundedAdd r) c file0 f o i - (base c file0 f i + (o.map fun p => c.contrib p f i).sum)| ≤
      drift u o.length * (|base c file0 f i| + (o.map fun p => |c.contrib p f i|).sum) := by
  have hu := hr.nonneg
  induction o using List.reverseRecOn with
  | nil => simp [oneByOne, drift]
  | append_singleton o p ih =>
    rw [@oneByOne_snoc K (roundedAdd r)]
    simp only [List.map_append, List.map_cons, List.map_nil, List.sum_append, List.sum_cons, List.sum_nil, add_zero,
      List.length_append, List.length_cons, List.length_nil]
    set a := @oneByOne K (roundedAdd r) c file0 f o i with ha
    set x := c.contrib p f i
    set S := (o.map fun p => c.contrib p f i).sum with hS
    set A := (o.map fun p => |c.contrib p f i|).sum with hA
    set b := base c file0 f i
    show |r (a + x) - (b + (S + x))| ≤ drift u (o.length + 1) * (|b| + (A + |x|))
    have hd := drift_nonneg hu o.length
    have h1 := hr.error (a + x)
    have hSA : |S| ≤ A := abs_sum_le _ o
    have h2 : |a + x| ≤ |a - (b + S)| + (|b| + A + |x|) := by
      calc |a + x| = |(a - (b + S)) + ((b + S) + x)| := by ring_nf
        _ ≤ |a - (b + S)| + |(b + S) + x| := abs_add_le _ _
        _ ≤ _ := by
          have := abs_add_le (b + S) x
          have := abs_add_le b S
          linarith
    have h3 : |r (a + x) - (b + (S + x))| ≤ |r (a + x) - (a + x)| + |a - (b + S)| := by
      calc _ = |(r (a + x) - (a + x)) + (a - (b + S))| := by ring_nf
        _ ≤ _ := abs_add_le _ _
    have h4 : u * |a + x| ≤ u * (|a - (b + S)| + (|b| + A + |x|)) := mul_le_mul_of_nonneg_left h2 hu
    have h5 : u * |a - (b + S)| ≤ u * (drift u o.length * (|b| + A)) := mul_le_mul_of_nonneg_left ih hu
    rw [drift_succ]
    have hx := abs_nonneg x
    have h6 : 0 ≤ drift u o.length * |x| := mul_nonneg hd hx
    have h7 : 0 ≤ u * (drift u o.length * |x|) := mul_nonneg hu h6
    nlinarith

/-- C99, rounding: whatever the order in which the processes come, each cell of each file is within the rounding error of as many
additions as there are processes of the exact sum. -/
theorem C99_rounded {r : K → K} {u : K} (hr : Rounding r u) (c : WCtx K) (file0 : FId → Option (Nat → K)) (h0 : ∀ f, file0 f ≠ none)
    (s : WState K) (hs : @Runs K (roundedAdd r) c (WState.init file0) s) (hn : 0 < c.n) (hd : ∀ p < c.n, s.pc p = .done) (f : FId) :
    ∃ v, s.file f = some v ∧ ∀ i < c.size f,
      |v i - (base c file0 f i + ∑ p ∈ Finset.range c.n, c.contrib p f i)| ≤
        drift u c.n * (|base c file0 f i| + ∑ p ∈ Finset.range c.n, |c.contrib p f i|) := by
  obtain ⟨o, ho, v, hv, h⟩ := @C99_permutation K (roundedAdd r) c file0 h0 s hs hn hd f
  refine ⟨v, hv, ?_⟩
  intro i hi
  have := oneByOne_rounded hr c file0 f o i
  rw [← h i hi, ho.length_eq, List.length_range, (ho.map _).sum_eq, (ho.map fun p => |c.contrib p f i|).sum_eq] at this
  exact this

/-- Two processes with contributions 16 and 1 to files that hold a 1, computing with three binary digits. -/
def shortCtx : WCtx ℚ := ⟨2, fun _ => 1, fun p _ _ => if p = 0 then 16 else 1, fun _ _ => 0⟩

/-- That two executions on the same files with the same data leave the same in them is false of a rounded addition: the files depend on
the order in which the processes get the lock. -/
theorem C99_same_files_refuted : ∃ (u : ℚ) (c : WCtx ℚ) (file0 : FId → Option (Nat → ℚ)) (s t : WState ℚ) (v w : Nat → ℚ),
    Rounding (floatRound 2) u ∧ (∀ f, file0 f ≠ none) ∧ @Runs ℚ (roundedAdd (floatRound 2)) c (WState.init file0) s ∧
    @Runs ℚ (roundedAdd (floatRound 2)) c (WState.init file0) t ∧ (∀ p < c.n, s.pc p = .done) ∧ (∀ p < c.n, t.pc p = .done) ∧
    s.file .hh = some v ∧ t.file .hh = some w ∧ 0 < c.size .hh ∧ v 0 ≠ w 0 := by
  have h0 : ∀ f : FId, (fun _ : FId => some fun _ : Nat => (1 : ℚ)) f ≠ none := by simp
  obtain ⟨s, s1, s2, s3⟩ := @C99_every_order ℚ (roundedAdd (floatRound 2)) shortCtx (fun _ => some fun _ => 1) h0 [0, 1] (by decide)
  obtain ⟨t, t1, t2, t3⟩ := @C99_every_order ℚ (roundedAdd (floatRound 2)) shortCtx (fun _ => some fun _ => 1) h0 [1, 0] (by decide)
  obtain ⟨v, v1, v2⟩ := s3 .hh
  obtain ⟨w, w1, w2⟩ := t3 .hh
  refine ⟨_, shortCtx, _, s, t, v, w, floatRound_rounding 2, h0, s1, t1, s2, t2, v1, w1, by decide, ?_⟩
  rw [v2 0 (by decide), w2 0 (by decide)]
  decide +kernel

/-- The hypotheses of `C99_rounded` are met by an execution of two processes; those of `C99_one_after_another` and `C99_permutation` as well. -/
example : ∃ s, @Runs ℚ (roundedAdd (floatRound 2)) shortCtx (WState.init fun _ => some fun _ => 1) s ∧
    (∀ p < shortCtx.n, s.pc p = .done) ∧ 0 < shortCtx.n ∧
    @UntornRuns ℚ (roundedAdd (floatRound 2)) shortCtx (WState.init fun _ => some fun _ => 1) s := by
  have h0 : ∀ f : FId, (fun _ : FId => some fun _ : Nat => (1 : ℚ)) f ≠ none := by simp
  obtain ⟨s, s1, s2, _⟩ := @C99_every_order ℚ (roundedAdd (floatRound 2)) shortCtx (fun _ => some fun _ => 1) h0 [1, 0] (by decide)
  exact ⟨s, s1, s2, by decide, @clean_untorn ℚ (roundedAdd (floatRound 2)) _ _ _ (@existing_clean ℚ (roundedAdd (floatRound 2)) _ _ h0 _ s1)⟩

end rounding

end Hpelm.Props
