import Verif.Props.C14_Ridge
import Verif.Spec.Training

/-! Facts about plain training runs, for the properties C64-C68. -/

set_option linter.unusedSectionVars false

namespace Hpelm
open Spec Props Finset
variable {K : Type} [Field K] [LinearOrder K] [IsStrictOrderedRing K]

/-- What a plain training run has computed. -/
structure Trained (env : Env K) (e : ELM K) (X T : Mat K) (e' : ELM K) (H B : Mat K) (w : Nat → K) : Prop where
  proj : e.nnet.project env X = .ok H
  rowsX : X.nrows = T.nrows
  rowsH : H.nrows = T.nrows
  colsH : H.cols = size e.nnet
  getB : e'.nnet.getB = some B
  wf : B.WF
  rows : B.nrows = H.cols
  cols : B.cols = T.cols
  sw : SampleWeights e'.classification e'.wc T w
  nonneg : ∀ s < T.nrows, 0 ≤ w s
  normal : NormalEq H T w e.nnet.norm B
  best : ∀ B' : Mat K, B'.WF → B'.nrows = H.cols → B'.cols = T.cols → ridgeLoss H T w e.nnet.norm B ≤ ridgeLoss H T w e.nnet.norm B'
  pred : ∀ Xn P, Predicts env e' Xn P → ∃ Hn, e.nnet.project env Xn = .ok Hn ∧ P = Hn.mul B ∧ Hn.cols = H.cols ∧ Hn.nrows = Xn.nrows

theorem Spec.PlainTrain.trained {env : Env K} (hl : Lawful env) (hx : env.Exact) {e e' : ELM K} {X T : Mat K} {args kw}
    (h : PlainTrain env e X T args kw e') : ∃ H B w, Trained env e X T e' H B w := by
  obtain ⟨fs, rnd, r, hr⟩ := h.run
  obtain ⟨H, S, HT, w, p0, hN, p1, p2, p3, p4, p5, p6, p7, p8, p9, p10, p11, p12, p13, p14⟩ :=
    train_plain hx h.sqrt h.noSelection.1 h.noSelection.2.1 h.noSelection.2.2 h.batch h.targets h.oneHot h.weights hr
  have hpd : PosDef S := posDef_gram p6 p7 (by rw [← p6.square, p7]) (fun i j hi hj => p13 i hi j hj) h.norm p12
  obtain ⟨q1, q2, q3, q4⟩ := solveCorr_posDef hl hx e.nnet p6 hpd (Or.inr rfl) p8 (by rw [p9, p7])
  have b1 : (e.nnet.solveCorr env (e.nnet.store S) HT).nrows = H.cols := by rw [q3, ← p6.square, p7]
  have b2 : (e.nnet.solveCorr env (e.nnet.store S) HT).cols = T.cols := by rw [q4, p10]
  have hne := solve_normalEq (lam := e.nnet.norm) p7 b1 b2 p13 p14 q1
  refine ⟨H, _, w, ⟨p1, hN, by rw [p2, hN], (project_WF h.consistent p1).2.2, by rw [p5]; rfl, q2, b1, b2, p11, p12, hne, ?_, ?_⟩⟩
  · intro B' h1 h2 h3
    exact (normalEq_minimises h.norm p12 q2 b1 b2 hne B' h1 h2 h3).1
  · rintro Xn P ⟨fs, hp⟩
    unfold ELM.predict at hp
    obtain ⟨o, ho, hp⟩ := bind_ok hp
    have ho' : o = some Xn := by
      unfold checkOne at ho
      simp only at ho
      obtain ⟨M, hM, ho⟩ := bind_ok ho
      obtain ⟨_, _, ho⟩ := bind_ok ho
      injection ho with ho
      injection hM with hM
      rw [hM, ho]
    rw [ho'] at hp
    simp only [p5] at hp
    unfold NNet.predict at hp
    simp only at hp
    obtain ⟨Hn, g1, hp⟩ := bind_ok hp
    have g1' : e.nnet.project env Xn = .ok Hn := g1
    have hw := project_WF h.consistent g1'
    refine ⟨Hn, g1', ?_, by rw [hw.2.2, (project_WF h.consistent p1).2.2], hw.2.1⟩
    split at hp
    · cases hp
    · injection hp with hp; exact hp.symm

theorem Trained.predGet {env : Env K} {e e' : ELM K} {X T H B w} (h : Trained env e X T e' H B w) {Xn P Hn : Mat K}
    (hP : P = Hn.mul B) (hc : Hn.cols = H.cols) (s : Nat) (hs : s < Hn.nrows) (j : Nat) (hj : j < T.cols) :
    P.get s j = predEntry Hn B s j := by
  rw [hP, get_mul_sum hs (by rw [h.cols]; exact hj)]
  unfold predEntry
  rw [h.rows, hc]

/-- The weights samples must have are determined by the classification kind and the class weights. -/
theorem sampleWeights_unique {cls : Option String} {wc : Option (List (Option K))} {T : Mat K} {w w' : Nat → K}
    (h : SampleWeights cls wc T w) (h' : SampleWeights cls wc T w') : ∀ s < T.nrows, w s = w' s := by
  intro s hs
  by_cases hc : cls = some "wc"
  · obtain ⟨l, k, a1, a2, a3⟩ := (h s hs).2 hc
    obtain ⟨l', k', b1, b2, b3⟩ := (h' s hs).2 hc
    rw [a1] at b1
    injection b1 with b1
    subst b1
    have hk : k = k' := by rw [← classOf_isClass a2, ← classOf_isClass b2]
    rw [← hk, a3] at b3
    injection b3 with b3
    injection b3
  · rw [(h s hs).1 hc, (h' s hs).1 hc]

theorem ridgeLoss_congr {H T B : Mat K} {w w' : Nat → K} {lam : K} (h : ∀ s < T.nrows, w s = w' s) :
    ridgeLoss H T w lam B = ridgeLoss H T w' lam B := by
  unfold ridgeLoss
  congr 1
  exact Finset.sum_congr rfl fun s hs => by rw [h s (Finset.mem_range.1 hs)]

/-- The homogeneous regularised system has only the zero solution. -/
theorem homog_zero {n L : Nat} {h : Nat → Nat → K} {w : Nat → K} {lam : K} (hl : 0 < lam) (hw : ∀ s < n, 0 ≤ w s) {b : Nat → K}
    (he : ∀ k < L, lam * b k + ∑ s ∈ range n, w s * h s k * ∑ l ∈ range L, h s l * b l = 0) : ∀ k < L, b k = 0 := by
  have h1 : lam * ∑ k ∈ range L, b k ^ 2 + ∑ s ∈ range n, w s * (∑ l ∈ range L, h s l * b l) ^ 2 = 0 := by
    have : ∑ k ∈ range L, b k * (lam * b k + ∑ s ∈ range n, w s * h s k * ∑ l ∈ range L, h s l * b l) = 0 :=
      Finset.sum_eq_zero fun k hk => by rw [he k (Finset.mem_range.1 hk), mul_zero]
    rw [← this]
    simp only [mul_add, Finset.sum_add_distrib, Finset.mul_sum (range L)]
    congr 1
    · exact Finset.sum_congr rfl fun k _ => by ring
    · simp only [Finset.mul_sum (range n)]
      rw [Finset.sum_comm]
      apply Finset.sum_congr rfl
      intro s _
      rw [pow_two, Finset.mul_sum, Finset.mul_sum]
      apply Finset.sum_congr rfl
      intro k _
      rw [← Finset.mul_sum]
      ring
  have q1 : 0 ≤ ∑ s ∈ range n, w s * (∑ l ∈ range L, h s l * b l) ^ 2 :=
    Finset.sum_nonneg fun s hs => mul_nonneg (hw s (Finset.mem_range.1 hs)) (sq_nonneg _)
  have q2 : 0 ≤ ∑ k ∈ range L, b k ^ 2 := Finset.sum_nonneg fun k _ => sq_nonneg _
  have q3 : ∑ k ∈ range L, b k ^ 2 = 0 := by
    by_contra hne
    have := mul_pos hl (lt_of_le_of_ne q2 (Ne.symm hne))
    linarith
  rw [Finset.sum_eq_zero_iff_of_nonneg (fun k _ => sq_nonneg _)] at q3
  intro k hk
  exact pow_eq_zero_iff two_ne_zero |>.1 (q3 k (Finset.mem_range.2 hk))

end Hpelm

namespace Hpelm
open Spec Props Finset
variable {K : Type} [Field K] [LinearOrder K] [IsStrictOrderedRing K]

/-- A permutation of a mapped list comes from a permutation of the list. -/
theorem perm_map_inv {α β : Type} (f : α → β) (m : List α) : ∀ l : List β, l.Perm (m.map f) → ∃ m' : List α, m'.Perm m ∧ l = m'.map f := by
  induction m with
  | nil => intro l h; exact ⟨[], List.Perm.refl _, by simpa using h⟩
  | cons a m ih =>
    intro l h
    have ha : f a ∈ l := h.mem_iff.2 (by simp)
    obtain ⟨l1, l2, rfl⟩ := List.append_of_mem ha
    have h2 : (l1 ++ l2).Perm (m.map f) := by
      have := List.perm_middle.symm.trans h
      simpa using this
    obtain ⟨m', hm, he⟩ := ih _ h2
    obtain ⟨m1, m2, rfl, rfl, rfl⟩ := List.append_eq_map_iff.1 he
    exact ⟨m1 ++ a :: m2, List.perm_middle.trans (hm.cons a), by simp⟩

/-- A list whose elements all occur (with multiplicity) in another is obtained by choosing distinct positions. -/
theorem subperm_positions {α : Type} {l l' : List α} (h : l.Subperm l') :
    ∃ idx : List Nat, idx.Subperm (List.range l'.length) ∧ idx.length = l.length ∧
      ∀ k < l.length, l[k]? = l'[idx.getD k 0]? ∧ idx.getD k 0 < l'.length := by
  obtain ⟨l2, h1, h2⟩ := h
  have hl' : l' = (List.range l'.length).attach.map (fun i => l'[i.1]'(List.mem_range.1 i.2)) := by
    apply List.ext_getElem (by simp)
    intro i h1 h2
    simp
  rw [hl'] at h2
  obtain ⟨m, hm, rfl⟩ := List.sublist_map_iff.1 h2
  obtain ⟨m', hm', rfl⟩ := perm_map_inv _ _ _ h1.symm
  refine ⟨m'.map (·.1), ?_, by simp, ?_⟩
  · refine ⟨m.map (·.1), (hm'.map _).symm, ?_⟩
    have := hm.map (·.1)
    simpa using this
  · intro k hk
    rw [List.length_map] at hk
    rw [List.getD_eq_getElem?_getD, List.getElem?_map, List.getElem?_map, List.getElem?_eq_getElem hk]
    simp only [Option.map_some, Option.getD_some]
    have := List.mem_range.1 (m'[k]).2
    exact ⟨(List.getElem?_eq_getElem this).symm, this⟩

/-- Hidden outputs only depend on the neuron. -/
theorem project_get_eq {env : Env K} {n n' : NNet K} {X H H' : Mat K} (hc : Consistent n) (hc' : Consistent n')
    (h : n.project env X = .ok H) (h' : n'.project env X = .ok H') {k k' : Nat} (hk : (neuronList n)[k]? = (neuronList n')[k']?) (s : Nat) :
    H.get s k = H'.get s k' := by
  rw [project_ok_spec hc h, project_ok_spec hc' h']
  simp only [Mat.get, List.getD_eq_getElem?_getD, List.getElem?_map]
  cases X.rows[s]? with
  | none => simp
  | some x =>
    simp only [Option.map_some, Option.getD_some, outs, List.getElem?_map, hk]

theorem project_eq_of_neurons {env : Env K} {n n' : NNet K} {X H H' : Mat K} (hc : Consistent n) (hc' : Consistent n')
    (h : n.project env X = .ok H) (h' : n'.project env X = .ok H') (hk : neuronList n = neuronList n') : H = H' := by
  rw [project_ok_spec hc h, project_ok_spec hc' h', hk]
  congr 1
  rw [← length_neuronList (fun g hg => ⟨(hc.groups g hg).1, (hc.groups g hg).2.1⟩),
    ← length_neuronList (fun g hg => ⟨(hc'.groups g hg).1, (hc'.groups g hg).2.1⟩), hk]

theorem size_neuronList {n : NNet K} (hc : Consistent n) : size n = (neuronList n).length :=
  (length_neuronList (fun g hg => ⟨(hc.groups g hg).1, (hc.groups g hg).2.1⟩)).symm

/-- Sum over the positions of a list. -/
theorem sum_positions (idx : List Nat) (g : Nat → K) : ∑ k ∈ range idx.length, g (idx.getD k 0) = (idx.map g).sum := by
  rw [← sum_range_list]
  congr 1
  apply List.ext_getElem (by simp)
  intro i h1 h2
  simp at h1
  simp [h1]

end Hpelm
