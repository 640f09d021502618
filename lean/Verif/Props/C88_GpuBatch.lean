import Verif.Props.C60_Gpu
import Verif.Lemmas.Bridge

/-!
# C88 The GPU accumulates the same correlation matrices as the CPU, in both precisions
-/

set_option linter.unusedSectionVars false

namespace Hpelm.Props
open Hpelm Spec Finset
variable {K : Type} [Field K] [LinearOrder K]

theorem cell_div {L i j : Nat} (hj : j < L) : (i * L + j) / L = i := by
  rw [Nat.mul_comm, Nat.mul_add_div (by omega), Nat.div_eq_of_lt hj, Nat.add_zero]

theorem cell_mod {L i j : Nat} (hj : j < L) : (i * L + j) % L = j := by
  rw [Nat.mul_comm, Nat.mul_add_mod, Nat.mod_eq_of_lt hj]

theorem cell_lt {N L i j : Nat} (hi : i < N) (hj : j < L) : i * L + j < N * L := by
  calc i * L + j < i * L + L := by omega
    _ = (i + 1) * L := by ring
    _ ≤ N * L := Nat.mul_le_mul_right _ hi

/-- Reading back an entry of an array stored in device memory. -/
theorem putMat_cell (mem : Nat → K) (base : Nat) (A : Mat K) {i j : Nat} (hi : i < A.nrows) (hj : j < A.cols) :
    putMat mem base A (base + (i * A.cols + j)) = A.get i j := by
  unfold putMat
  rw [if_pos ⟨by omega, by have := cell_lt hi hj; omega⟩]
  have : base + (i * A.cols + j) - base = i * A.cols + j := by omega
  rw [this, cell_div hj, cell_mod hj]

theorem putMat_other (mem : Nat → K) (base : Nat) (A : Mat K) {a : Nat} (ha : a < base ∨ base + A.nrows * A.cols ≤ a) :
    putMat mem base A a = mem a := by
  unfold putMat
  rw [if_neg (by omega)]

/-- C88, the triangular update.  With the arrays `H` (`N × L`) and `HH` (`L × L`) stored row by row in separate places of the device memory, the
single-precision library call, which takes arrays stored column by column and fills the lower triangle, leaves in memory the matrix whose upper
triangle is that of `HH + Hᵀ H` and whose strict lower triangle is that of `HH`. -/
theorem C88_triangle (mem : Nat → K) (hPtr cPtr : Nat) (HH H : Mat K) (hsq : HH.nrows = H.cols ∧ HH.cols = H.cols)
    (hd : hPtr + H.nrows * H.cols ≤ cPtr ∨ cPtr + H.cols * H.cols ≤ hPtr) (i j : Nat) (hi : i < H.cols) (hj : j < H.cols) :
    (gpuUpdHH .single mem hPtr cPtr H.cols HH H).get i j =
      HH.get i j + if i ≤ j then ∑ s ∈ range H.nrows, H.get s i * H.get s j else 0 := by
  unfold gpuUpdHH getMat
  rw [Mat.get_ofFn_lt hi hj]
  have hc : putMat (putMat mem cPtr HH) hPtr H (cPtr + (i * H.cols + j)) = HH.get i j := by
    have := cell_lt hi hj
    rw [putMat_other _ _ _ (by omega)]
    have := putMat_cell mem cPtr HH (i := i) (j := j) (by omega) (by omega)
    rwa [hsq.2] at this
  have hh : ∀ p < H.nrows, ∀ q < H.cols, putMat (putMat mem cPtr HH) hPtr H (hPtr + q + p * H.cols) = H.get p q := by
    intro p hp q hq
    have := putMat_cell (putMat mem cPtr HH) hPtr H hp hq
    rwa [show hPtr + (p * H.cols + q) = hPtr + q + p * H.cols by omega] at this
  unfold cublasSyrk
  have e : cPtr + (i * H.cols + j) - cPtr = i * H.cols + j := by omega
  simp only [e, cell_div hj, cell_mod hj, hc]
  by_cases hij : i ≤ j
  · rw [if_pos ⟨by omega, hj, hi, hij⟩, if_pos hij]
    congr 1
    show _ = ((List.range H.nrows).map fun s => H.get s i * H.get s j).sum
    congr 1
    apply List.map_congr_left
    intro p hp
    rw [hh p (List.mem_range.1 hp) j hj, hh p (List.mem_range.1 hp) i hi, mul_comm]
  · rw [if_neg (by omega), if_neg hij, add_zero]

theorem gpuUpdHH_single (mem : Nat → K) (hPtr cPtr : Nat) (HH H : Mat K) (hsq : HH.nrows = H.cols ∧ HH.cols = H.cols)
    (hd : hPtr + H.nrows * H.cols ≤ cPtr ∨ cPtr + H.cols * H.cols ≤ hPtr) :
    gpuUpdHH .single mem hPtr cPtr H.cols HH H = syrkUpper HH H := by
  refine Mat.ext_get (Mat.ofFn_WF _ _ _) (Mat.ofFn_WF _ _ _) (by simp [gpuUpdHH, getMat, syrkUpper, hsq.1])
    (by simp [gpuUpdHH, getMat, syrkUpper, hsq.2]) ?_
  intro i j hi hj
  have hi' : i < H.cols := by simpa [gpuUpdHH, getMat] using hi
  have hj' : j < H.cols := by simpa [gpuUpdHH, getMat] using hj
  rw [C88_triangle mem hPtr cPtr HH H hsq hd i j hi' hj']
  unfold syrkUpper
  rw [Mat.get_ofFn_lt (by omega) (by omega)]
  split
  · rw [get_tmul_sum rfl hi' hj']
  · rw [add_zero]

theorem scaleRows_mult {w : List K} {M : Mat K} (h : w.length = M.nrows) : scaleRows w M = multMatvec w M := by
  unfold scaleRows multMatvec
  rw [if_pos h, if_pos h]

/-- C88.  For every consistent network with neurons on a GPU solver, all batches of data, sample weights, contents of fresh GPU memory, orders of the
GPU threads and places of the arrays in GPU memory, adding a batch on the GPU (single or double precision) changes the network exactly as
`addBatch` says, or raises the same exception. -/
theorem C88_gpu_batch (env : Env K) (hx : env.Exact) (n : NNet K) (hs : n.solver = .cuda) (hc : Consistent n) (hne : n.neurons ≠ []) (X T : Mat K)
    (wc : Option (List K)) (hw : ∀ w, wc = some w → w.length = X.nrows) (junk : Nat → Nat → K) (ls : Nat → Launch K)
    (hl : ∀ k g, n.neurons[k]? = some g → AllThreadsRun (ls k).block (X.nrows * g.number) (ls k).sched)
    (mem : Nat → K) (hPtr cPtr : Nat) (hd : hPtr + X.nrows * size n ≤ cPtr ∨ cPtr + size n * size n ≤ hPtr) :
    n.addBatchGpu env junk ls mem hPtr cPtr X T wc = n.addBatch env X T wc := by
  unfold NNet.addBatchGpu NNet.addBatch
  rw [C60_gpu_projection env hx n hc hne X junk ls hl]
  cases hp : n.project env X with
  | error x => exact Eq.trans (b := Except.error x) rfl rfl
  | ok H =>
    obtain ⟨p1, p2, p3⟩ := project_WF hc hp
    have hL : n.L.getD 0 = H.cols := by
      rw [p3]
      rcases hc.count with h | ⟨h, h'⟩
      · rw [h]; rfl
      · exact absurd h' hne
    have hupd : ∀ (H' HH : Mat K), H'.nrows = X.nrows → H'.cols = H.cols → HH.nrows = H.cols → HH.cols = H.cols →
        gpuUpdHH n.prec mem hPtr cPtr (n.L.getD 0) HH H' = n.updHH HH H' := by
      intro H' HH h1 h2 h3 h4
      unfold NNet.updHH
      rw [hs, hL]
      cases hpr : n.prec with
      | double => rfl
      | single =>
        rw [← h2]
        exact gpuUpdHH_single mem hPtr cPtr HH H' ⟨by omega, by omega⟩ (by rw [h1, h2, p3]; exact hd)
    have hdiag : (Mat.diag (n.L.getD 0) 1).map (n.norm * ·) = Mat.diag (n.L.getD 0) n.norm := by
      refine Mat.ext_get (Mat.map_WF (Mat.diag_WF _ _)) (Mat.diag_WF _ _) (by simp [Mat.map, Mat.nrows]; simp [Mat.diag, Mat.ofFn]) rfl ?_
      intro i j hi hj
      have hi' : i < n.L.getD 0 := by simpa [Mat.map, Mat.nrows, Mat.diag, Mat.ofFn] using hi
      have hj' : j < n.L.getD 0 := hj
      rw [Mat.get_map (Mat.diag_WF _ _) (by simpa using hi') (by simpa using hj'), Mat.get_diag hi' hj', Mat.get_diag hi' hj']
      split <;> simp
    have hcorr : ∀ HH HT, n.corr = some (HH, HT) → HH.nrows = H.cols := by
      intro HH HT h
      have := (hc.corrs HH HT h).2.2.1
      rw [← this] at hL
      exact hL
    -- what is added, from the weighted arrays on
    have tail : ∀ (H' T' : Mat K), H'.nrows = X.nrows → H'.cols = H.cols →
        (if H'.nrows ≠ T'.nrows ∨ T'.cols ≠ n.outputs then (Except.error PyErr.valueError : Except PyErr (NNet K)) else
          if H'.cols ≠ (match n.corr with
            | none => ((Mat.diag (n.L.getD 0) 1).map (n.norm * ·), Mat.zeros (n.L.getD 0) n.outputs)
            | some c => c).1.cols then .error .valueError else
          pure { n with corr := some (gpuUpdHH n.prec mem hPtr cPtr (n.L.getD 0) (match n.corr with
            | none => ((Mat.diag (n.L.getD 0) 1).map (n.norm * ·), Mat.zeros (n.L.getD 0) n.outputs)
            | some c => c).1 H', (match n.corr with
            | none => ((Mat.diag (n.L.getD 0) 1).map (n.norm * ·), Mat.zeros (n.L.getD 0) n.outputs)
            | some c => c).2.add (H'.tmul T')) }) =
        (if H'.nrows ≠ T'.nrows ∨ T'.cols ≠ n.outputs then (Except.error PyErr.valueError : Except PyErr (NNet K)) else
          if H'.cols ≠ (match n.corr with
            | none => (Mat.diag (n.L.getD 0) n.norm, Mat.zeros (n.L.getD 0) n.outputs)
            | some c => c).1.cols then .error .valueError else
          pure { n with corr := some (n.updHH (match n.corr with
            | none => (Mat.diag (n.L.getD 0) n.norm, Mat.zeros (n.L.getD 0) n.outputs)
            | some c => c).1 H', (match n.corr with
            | none => (Mat.diag (n.L.getD 0) n.norm, Mat.zeros (n.L.getD 0) n.outputs)
            | some c => c).2.add (H'.tmul T')) }) := by
      intro H' T' h1 h2
      rw [hdiag]
      split_ifs with c1 c2
      · rfl
      · rfl
      · rw [hupd _ _ h1 h2]
        · cases hcc : n.corr with
          | none => simp [hL]
          | some c => exact hcorr c.1 c.2 hcc
        · rw [← h2]
          exact (not_not.1 c2).symm
    cases wc with
    | none => exact tail H _ p2 rfl
    | some w =>
      have hwl := hw w rfl
      have e1 : scaleRows (w.map fun x => env.cast n.prec (env.sqrt x)) H = multMatvec (w.map fun x => env.cast n.prec (env.sqrt x)) H :=
        scaleRows_mult (by simp [hwl, p2])
      have e2 : multMatvec (w.map fun x => env.cast n.prec (env.sqrt x)) H =
          .ok ⟨H.cols, List.zipWith (fun c r => r.map (c * ·)) (w.map fun x => env.cast n.prec (env.sqrt x)) H.rows⟩ := by
        unfold multMatvec
        rw [if_pos (by simp [hwl, p2])]
      have hrows : (⟨H.cols, List.zipWith (fun c r => r.map (c * ·)) (w.map fun x => env.cast n.prec (env.sqrt x)) H.rows⟩ : Mat K).nrows = X.nrows := by
        have : H.rows.length = X.nrows := p2
        simp [Mat.nrows, hwl, this]
      simp only [weighted, bind, Except.bind, e1, e2]
      by_cases hT : w.length = T.nrows
      · have hT' : (w.map fun x => env.cast n.prec (env.sqrt x)).length = (T.map (env.cast n.prec)).nrows := by
          simpa [Mat.map, Mat.nrows] using hT
        rw [scaleRows_mult hT']
        cases h2 : multMatvec (w.map fun x => env.cast n.prec (env.sqrt x)) (T.map (env.cast n.prec)) with
        | error x => exact Eq.trans (b := Except.error x) rfl rfl
        | ok T' => exact tail _ T' hrows rfl
      · have hT' : (w.map fun x => env.cast n.prec (env.sqrt x)).length ≠ (T.map (env.cast n.prec)).nrows := by
          simpa [Mat.map, Mat.nrows] using hT
        have g1 : multMatvec (w.map fun x => env.cast n.prec (env.sqrt x)) (T.map (env.cast n.prec)) = .error .valueError := by
          unfold multMatvec
          rw [if_neg hT']
        rw [g1]
        have g2 : scaleRows (w.map fun x => env.cast n.prec (env.sqrt x)) (T.map (env.cast n.prec)) = .error .valueError ∨
            ∃ T', T'.nrows = T.nrows ∧ scaleRows (w.map fun x => env.cast n.prec (env.sqrt x)) (T.map (env.cast n.prec)) = .ok T' := by
          unfold scaleRows
          rw [if_neg hT']
          split
          · exact Or.inr ⟨_, by simp [Mat.map, Mat.nrows], rfl⟩
          · exact Or.inl rfl
        rcases g2 with g2 | ⟨T', g3, g2⟩
        · rw [g2]
        · rw [g2]
          simp only [pure, Except.pure]
          rw [if_pos (Or.inl (by rw [hrows, g3, ← hwl]; exact hT))]

/-! A case that meets the hypotheses of the theorems: the network and kernel launches of C60 in single precision, two weighted samples, `devH` at the
addresses 4 to 9 and `HH` at 13 to 21. -/

example : exGpu.solver = .cuda ∧ (4 + 2 * 3 ≤ 13 ∨ 13 + 3 * 3 ≤ 4) ∧
    (NNet.addBatchGpu QEnv.env (fun _ _ => 99) exLaunch (fun a => a) 4 13 { exGpu with prec := .single } ⟨1, [[1], [2]]⟩ ⟨1, [[1], [0]]⟩
      (some [1, 4])).map (fun n => n.corr) =
      .ok (some (⟨3, [[219 / 2, 6, 49 / 18], [0, 31 / 36, 1 / 6], [0, 0, 187 / 324]]⟩, ⟨1, [[3], [1 / 3], [1 / 6]]⟩)) := by
  refine ⟨rfl, by decide, ?_⟩
  decide +kernel

end Hpelm.Props
