import Verif.Model.Gpu
import Verif.Lemmas.Network
import Verif.Lemmas.QEnv
import Verif.Lemmas.LawEnv

/-!
# C60 The GPU computes the same hidden layer as the CPU, for every order of the GPU threads
-/

namespace Hpelm.Props
open Hpelm Spec
variable {K : Type} [Field K] [LinearOrder K]

/-- The order of steps of a launch on an array of `size` numbers: there are `ceil(size / block)` blocks of `block` threads,
every thread takes its two steps (read, write), in any interleaving. -/
def AllThreadsRun (block size : Nat) (sched : List Nat) : Prop :=
  0 < block ∧ sched.Perm (List.range (gridSize size block * block) ++ List.range (gridSize size block * block))

theorem sigm_fold (env : Env K) (base : Nat) (mem : Nat → K) (sched : List Nat) :
    sched.foldl (sigmStep env base) ⟨mem, fun _ => none⟩ =
      ⟨fun a => if base ≤ a ∧ 2 ≤ sched.count (a - base) then 1 / (env.exp (mem a) + 1) else mem a,
        fun t => if 1 ≤ sched.count t then some (mem (base + t)) else none⟩ := by
  induction sched using List.reverseRecOn with
  | nil => simp
  | append_singleton l t ih =>
    rw [List.foldl_append, ih]
    simp only [List.foldl_cons, List.foldl_nil, sigmStep]
    by_cases h1 : 1 ≤ l.count t
    · simp only [if_pos h1]
      congr 1
      · funext a
        by_cases ha : a = base + t
        · subst ha
          have : base + t - base = t := by omega
          rw [if_pos rfl, if_pos ⟨by omega, by rw [this, List.count_append, List.count_singleton_self]; omega⟩]
        · rw [if_neg ha]
          by_cases hb : base ≤ a
          · have : a - base ≠ t := by omega
            simp [hb, Ne.symm this]
          · simp [hb]
      · funext u
        by_cases hu : t = u
        · subst hu; simp [h1]
        · simp [hu]
    · have h0 : l.count t = 0 := by omega
      simp only [if_neg h1]
      congr 1
      · funext a
        by_cases hb : base ≤ a
        · by_cases ha : t = a - base
          · subst ha; simp [hb, h0]
          · simp [hb, ha]
        · simp [hb]
      · funext u
        by_cases hu : u = t
        · subst hu
          simp [h0]
        · simp [hu, Ne.symm hu]

theorem count_all {T t : Nat} {sched : List Nat} (h : sched.Perm (List.range T ++ List.range T)) :
    sched.count t = if t < T then 2 else 0 := by
  rw [h.count_eq, List.count_append]
  by_cases ht : t < T
  · rw [if_pos ht, List.count_eq_one_of_mem List.nodup_range (List.mem_range.2 ht)]
  · rw [if_neg ht, List.count_eq_zero_of_not_mem (by simpa using ht)]

theorem le_grid (size block : Nat) (h : 0 < block) : size ≤ gridSize size block * block := by
  unfold gridSize
  have h1 := Nat.div_add_mod (size + block - 1) block
  have h2 := Nat.mod_lt (size + block - 1) h
  rw [mul_comm]
  omega

theorem grid_dvd (size block : Nat) (h : 0 < block) : gridSize size block * block = size ↔ block ∣ size := by
  constructor
  · intro h1
    exact ⟨_, by rw [mul_comm]; exact h1.symm⟩
  · rintro ⟨c, rfl⟩
    unfold gridSize
    have : (block * c + block - 1) / block = c := by
      apply Nat.div_eq_of_lt_le
      · rw [mul_comm]; omega
      · rw [Nat.succ_mul, mul_comm]; omega
    rw [this, mul_comm]

/-- C60, the kernel.  After all threads have run, in whatever order, each of the `size` numbers of the array has been replaced
by its sigmoid, exactly once, and no memory in front of the array or behind the last block is touched. -/
theorem C60_kernel (env : Env K) (mem : Nat → K) (base size block : Nat) (sched : List Nat)
    (h : AllThreadsRun block size sched) :
    (∀ i < size, runSigm env base sched mem (base + i) = 1 / (1 + env.exp (mem (base + i)))) ∧
      (∀ a < base, runSigm env base sched mem a = mem a) ∧
      ∀ i, gridSize size block * block ≤ i → runSigm env base sched mem (base + i) = mem (base + i) := by
  obtain ⟨h1, h2⟩ := h
  unfold runSigm
  rw [sigm_fold]
  have hle := le_grid size block h1
  refine ⟨?_, ?_, ?_⟩
  · intro i hi
    have : base + i - base = i := by omega
    simp only [this, count_all h2]
    rw [if_pos ⟨by omega, by rw [if_pos (by omega)]⟩, add_comm]
  · intro a ha
    simp only
    rw [if_neg (by omega)]
  · intro i hi
    have : base + i - base = i := by omega
    simp only [this, count_all h2]
    rw [if_neg (by rw [if_neg (by omega)]; omega)]

/-- C60, memory safety (partial: only for arrays whose size is a multiple of the block size).  Then the kernel changes nothing
but the array. -/
theorem C60_memory_partial (env : Env K) (mem : Nat → K) (base size block : Nat) (sched : List Nat)
    (h : AllThreadsRun block size sched) (hd : block ∣ size) (a : Nat) (ha : a < base ∨ base + size ≤ a) :
    runSigm env base sched mem a = mem a := by
  obtain ⟨_, h2, h3⟩ := C60_kernel env mem base size block sched h
  rcases ha with ha | ha
  · exact h2 a ha
  · have := h3 (a - base) (by rw [(grid_dvd size block h.1).2 hd]; omega)
    rwa [show base + (a - base) = a by omega] at this

/-- C60, memory safety fails for every other size: whatever the order of the threads, the number stored right behind the array
is replaced by its sigmoid. -/
theorem C60_overrun (env : Env K) (mem : Nat → K) (base size block : Nat) (sched : List Nat)
    (h : AllThreadsRun block size sched) (hd : ¬ block ∣ size) :
    runSigm env base sched mem (base + size) = 1 / (1 + env.exp (mem (base + size))) := by
  obtain ⟨h1, h2⟩ := h
  unfold runSigm
  rw [sigm_fold]
  have hle := le_grid size block h1
  have hne : gridSize size block * block ≠ size := fun hc => hd ((grid_dvd size block h1).1 hc)
  have : base + size - base = size := by omega
  simp only [this, count_all h2]
  rw [if_pos ⟨by omega, by rw [if_pos (by omega)]⟩, add_comm]

/-- The memory-safety half of C60 is false as a general claim: 3 numbers, blocks of 2 threads. -/
theorem C60_memory_refuted : ¬ ∀ (mem : Nat → ℚ) (base size block : Nat) (sched : List Nat), AllThreadsRun block size sched →
    ∀ a, a < base ∨ base + size ≤ a → runSigm QEnv.env base sched mem a = mem a := by
  intro h
  have h1 := h (fun _ => 0) 0 3 2 ([0, 1, 2, 3] ++ [0, 1, 2, 3]) ⟨by decide, by decide⟩ 3 (by decide)
  rw [C60_overrun QEnv.env (fun _ => 0) 0 3 2 _ ⟨by decide, by decide⟩ (by decide)] at h1
  revert h1
  decide +kernel

/-! ### The whole projection -/

variable {env : Env K}

theorem devSigm_eq {l : Launch K} {A : Mat K} (hA : A.WF) (h : AllThreadsRun l.block (A.nrows * A.cols) l.sched) :
    (devSigm env l A).1 = A.map fun v => 1 / (1 + env.exp v) := by
  apply Mat.ext_get (Mat.ofFn_WF _ _ _)
  · intro r hr
    simp only [Mat.map, List.mem_map] at hr
    obtain ⟨r', hr', rfl⟩ := hr
    simpa [Mat.map] using hA r' hr'
  · simp only [devSigm, getMat, Mat.ofFn_nrows]; simp [Mat.map, Mat.nrows]
  · simp [devSigm, getMat, Mat.map]
  intro i j hi hj
  simp only [devSigm, getMat, Mat.ofFn_nrows, Mat.ofFn_cols] at hi hj
  have hlt : i * A.cols + j < A.nrows * A.cols := by
    calc i * A.cols + j < i * A.cols + A.cols := by omega
      _ = (i + 1) * A.cols := by ring
      _ ≤ A.nrows * A.cols := Nat.mul_le_mul_right _ hi
  rw [Mat.get_ofFn_lt hi hj, (C60_kernel env _ _ _ _ _ h).1 _ hlt]
  have hput : putMat l.mem l.base A (l.base + (i * A.cols + j)) = A.get i j := by
    unfold putMat
    rw [if_pos ⟨by omega, by omega⟩]
    have e1 : l.base + (i * A.cols + j) - l.base = i * A.cols + j := by omega
    have e2 : (i * A.cols + j) / A.cols = i := by
      rw [mul_comm, Nat.mul_add_div (by omega), Nat.div_eq_of_lt hj, add_zero]
    have e3 : (i * A.cols + j) % A.cols = j := by
      rw [mul_comm, Nat.mul_add_mod, Nat.mod_eq_of_lt hj]
    rw [e1, e2, e3]
  rw [hput]
  have hi' : i < A.rows.length := hi
  have hj' : j < A.rows[i].length := by rw [hA _ (List.getElem_mem hi')]; exact hj
  simp [Mat.get, Mat.map, List.getD_eq_getElem?_getD, hi', hj']

theorem gpuApply_eq {l : Launch K} {X : Mat K} {g : Group K} (h1 : g.W.length = g.number) (h2 : g.B.length = g.number)
    (h : AllThreadsRun l.block (X.nrows * g.number) l.sched) : gpuApply env l X g = applyGroup env X g := by
  unfold gpuApply
  split
  · rename_i hs
    have hA : applyGroup env X { g with func := .name "lin" }
        = .ok ⟨g.W.length, X.rows.map fun x => List.zipWith (fun w b => dot x w + b) g.W g.B⟩ := rfl
    rw [hA]
    simp only [bind, Except.bind, pure, Except.pure]
    rw [devSigm_eq]
    · simp only [applyGroup, hs, act]
      simp only [show ("sigm" = "lin") = False by decide, if_false, if_true]
      simp only [Mat.map, List.map_map, Except.ok.injEq, Mat.mk.injEq, true_and]
      apply List.map_congr_left
      intro x _
      simp [List.map_zipWith]
    · intro r hr
      simp only [List.mem_map] at hr
      obtain ⟨x, _, rfl⟩ := hr
      simp [h1, h2]
    · simpa [Mat.nrows, h1] using h
  · rfl

theorem gpuLoop_eq (ls : Nat → Launch K) (X : Mat K) (gs : List (Group K))
    (hg : ∀ g ∈ gs, g.W.length = g.number ∧ g.B.length = g.number) :
    ∀ (k i : Nat) (H : Nat → Nat → K),
    (∀ m g, gs[m]? = some g → AllThreadsRun (ls (k + m)).block (X.nrows * g.number) (ls (k + m)).sched) →
    if ∀ g ∈ gs, (groupAct env g).isSome then
      ∃ H', gpuLoop env ls X gs k i H = .ok H' ∧ ∀ r x, X.rows[r]? = some x → ∀ c, H' r c =
        if i ≤ c ∧ c < i + width gs then (rowOut env gs x).getD (c - i) 0 else H r c
    else gpuLoop env ls X gs k i H = .error .keyError := by
  induction gs with
  | nil =>
    intro k i H _
    rw [if_pos (by simp)]
    refine ⟨H, rfl, ?_⟩
    intro r x _ c
    rw [if_neg (by simp [width])]
  | cons g gs ih =>
    intro k i H hl
    have hap : gpuApply env (ls k) X g = applyGroup env X g := by
      obtain ⟨h1, h2⟩ := hg g List.mem_cons_self
      exact gpuApply_eq h1 h2 (by simpa using hl 0 g rfl)
    obtain ⟨h1, h2⟩ := hg g List.mem_cons_self
    rw [applyGroup_eq] at hap
    cases hga : groupAct env g with
    | none =>
      rw [if_neg (by simp [hga])]
      rw [hga] at hap
      simp [gpuLoop, hap, bind, Except.bind]
    | some f =>
      rw [hga] at hap
      have hstep : gpuLoop env ls X (g :: gs) k i H = gpuLoop env ls X gs (k + 1) (i + g.number)
          (fun r c => if i ≤ c ∧ c < i + g.number then (⟨g.W.length, X.rows.map f⟩ : Mat K).get r (c - i) else H r c) := by
        simp [gpuLoop, hap, bind, Except.bind, h1, pure, Except.pure]
      have := ih (fun g' hg' => hg g' (List.mem_cons_of_mem _ hg')) (k + 1) (i + g.number)
        (fun r c => if i ≤ c ∧ c < i + g.number then (⟨g.W.length, X.rows.map f⟩ : Mat K).get r (c - i) else H r c)
        (by
          intro m g' hm
          have := hl (m + 1) g' (by simpa using hm)
          rwa [show k + (m + 1) = k + 1 + m by omega] at this)
      by_cases hall : ∀ g ∈ gs, (groupAct env g).isSome
      · rw [if_pos (by simpa [hga] using hall)]
        rw [if_pos hall] at this
        obtain ⟨H', hH, hval⟩ := this
        refine ⟨H', by rw [hstep]; exact hH, ?_⟩
        intro r x hx c
        rw [hval r x hx c]
        have hlen : (rowOut env [g] x).length = g.number := by
          rw [rowOut_single env g f hga x]
          unfold groupAct at hga
          cases hfu : g.func with
          | ufunc s => rw [hfu] at hga; cases hga
          | name s =>
            rw [hfu] at hga
            obtain ⟨a, _, rfl⟩ := Option.map_eq_some_iff.1 hga
            simp [h1, h2]
        have hw : width (g :: gs) = g.number + width gs := by simp [width, h1]
        rw [hw, rowOut_cons]
        by_cases c1 : i + g.number ≤ c ∧ c < i + g.number + width gs
        · rw [if_pos c1, if_pos ⟨by omega, by omega⟩]
          rw [List.getD_eq_getElem?_getD, List.getD_eq_getElem?_getD, List.getElem?_append_right (by omega), hlen]
          congr 2; omega
        · rw [if_neg c1]
          by_cases c2 : i ≤ c ∧ c < i + g.number
          · rw [if_pos c2, if_pos ⟨c2.1, by omega⟩, List.getD_eq_getElem?_getD,
              List.getElem?_append_left (by omega), rowOut_single env g f hga x]
            simp [Mat.get, List.getD_eq_getElem?_getD, hx]
          · rw [if_neg c2, if_neg (by omega)]
      · rw [if_neg (by simpa [hga] using hall)]
        rw [if_neg hall] at this
        rw [hstep]; exact this

/-- C60.  For every consistent network with at least one type of neurons, all data, all contents of freshly allocated GPU
memory and all orders of the GPU threads, the GPU projection has the same outcome as the CPU projection: the same matrix, or
the same exception. -/
theorem C60_gpu_projection (env : Env K) (hx : env.Exact) (n : NNet K) (hc : Consistent n) (hne : n.neurons ≠ []) (X : Mat K)
    (junk : Nat → Nat → K) (ls : Nat → Launch K)
    (hl : ∀ k g, n.neurons[k]? = some g → AllThreadsRun (ls k).block (X.nrows * g.number) (ls k).sched) :
    n.projectGpu env junk ls X = n.project env X := by
  have hL : n.L = some (width n.neurons) := by
    rcases hc.count with h | ⟨_, h⟩
    · rw [h, width_eq_size fun g hg => (hc.groups g hg).1]; rfl
    · exact absurd h hne
  have hcast : X.map (env.cast n.prec) = X := by
    have : env.cast n.prec = id := by funext v; exact hx _ _
    rw [this]
    cases X; simp [Mat.map]
  unfold NNet.projectGpu
  rw [hL]
  simp only [hcast]
  rw [project_eq]
  by_cases hcol : X.cols ≠ n.inputs
  · rw [if_pos hcol, if_pos hcol]; rfl
  · rw [if_neg hcol, if_neg hcol]
    have := gpuLoop_eq (env := env) ls X n.neurons (fun g hg => ⟨(hc.groups g hg).1, (hc.groups g hg).2.1⟩) 0 0 junk
      (by simpa using hl)
    by_cases hall : ∀ g ∈ n.neurons, (groupAct env g).isSome
    · rw [if_pos hall] at this
      obtain ⟨H', hH, hval⟩ := this
      rw [if_neg (not_not.2 hall), if_neg hne]
      simp only [hH, bind, Except.bind, pure, Except.pure]
      congr 1
      have hp : n.project env X = .ok ⟨width n.neurons, X.rows.map (rowOut env n.neurons)⟩ :=
        (project_ok_iff _ _ _ _).2 ⟨not_not.1 hcol, hall, hne, rfl⟩
      apply Mat.ext_get (Mat.ofFn_WF _ _ _) (project_WF hc hp).1 (by rw [Mat.ofFn_nrows]; simp [Mat.nrows]) (by simp)
      intro i j hi hj
      simp only [Mat.ofFn_nrows, Mat.ofFn_cols] at hi hj
      rw [Mat.get_ofFn_lt hi hj]
      have hi' : i < X.rows.length := hi
      rw [hval i _ (List.getElem?_eq_getElem hi') j, if_pos ⟨by omega, by omega⟩]
      simp [Mat.get, List.getD_eq_getElem?_getD, hi']
    · rw [if_neg hall] at this
      rw [if_pos hall]
      simp [this, bind, Except.bind]

/-! A case that meets the hypotheses: one linear and two sigmoid neurons, two samples; the kernel runs on 4 numbers in two
blocks of 3 threads, all threads read before any of them writes. -/

/-- The launches of the example. -/
def exLaunch : Nat → Launch ℚ := fun k =>
  if k = 0 then ⟨fun _ => 7, 10, 2, [0, 1] ++ [0, 1]⟩ else ⟨fun _ => 7, 10, 3, [5, 4, 3, 2, 1, 0] ++ [0, 1, 2, 3, 4, 5]⟩

/-- The network of the example. -/
def exGpu : NNet ℚ :=
  ((NNet.init QEnv.env .cuda 1 1 none .double).addNeurons 1 (.name "lin") [[2]] [1]).addNeurons 2 (.name "sigm") [[1], [3]] [0, 1]

example : (∀ k g, exGpu.neurons[k]? = some g →
      AllThreadsRun (exLaunch k).block ((⟨1, [[1], [2]]⟩ : Mat ℚ).nrows * g.number) (exLaunch k).sched) ∧
    exGpu.projectGpu QEnv.env (fun _ _ => 99) exLaunch ⟨1, [[1], [2]]⟩ = .ok ⟨3, [[3, 1/3, 1/6], [5, 1/4, 1/9]]⟩ := by
  constructor
  · intro k g hk
    match k with
    | 0 =>
      have : g.number = 1 := by
        simp only [exGpu, NNet.init, NNet.addNeurons, NNet.reset, addGroup] at hk
        rw [if_neg (by decide)] at hk
        simp at hk; simp [← hk]
      rw [this]
      exact ⟨by decide, by decide⟩
    | 1 =>
      have : g.number = 2 := by
        simp only [exGpu, NNet.init, NNet.addNeurons, NNet.reset, addGroup] at hk
        rw [if_neg (by decide)] at hk
        simp at hk; simp [← hk]
      rw [this]
      exact ⟨by decide, by decide⟩
    | k + 2 =>
      simp only [exGpu, NNet.init, NNet.addNeurons, NNet.reset, addGroup] at hk
      rw [if_neg (by decide)] at hk
      simp at hk
  · decide +kernel

end Hpelm.Props
