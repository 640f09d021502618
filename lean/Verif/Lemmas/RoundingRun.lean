import Verif.Lemmas.RoundingSamples

set_option linter.unusedSectionVars false
namespace Hpelm
open Spec
variable {K : Type} [Field K] [LinearOrder K] [IsStrictOrderedRing K]

theorem samples_cons (b : HBatch K) (bs : List (HBatch K)) : samples (b :: bs) = samples [b] ++ samples bs := by
  simp [samples]

/-- The terms of one batch. -/
theorem entering_terms {env : Env K} {p : Prec} {u : K} (hr : Rounding (env.cast p) u)
    (hsq : ∀ v : K, 0 ≤ v → env.sqrt v * env.sqrt v = v) {L c : Nat} {b : HBatch K} (hf : Fit L c b)
    {q : Mat K × Mat K} (he : Entering env p b q) (i j : Nat) :
    List.Forall₂ (fun (t : Term K) (s : List K × List K × K) => WithinDrift u 4 (s.2.2 * (s.1.getD i 0 * s.1.getD j 0)) t.value)
      (products q.1 q.1 i j) (samples [b]) ∧
    List.Forall₂ (fun (t : Term K) (s : List K × List K × K) => WithinDrift u 5 (s.2.2 * (s.1.getD i 0 * s.2.1.getD j 0)) t.value)
      (products q.1 q.2 i j) (samples [b]) := by
  obtain ⟨_, _, _, _, hN, hw⟩ := hf
  obtain ⟨H, T, wc⟩ := b
  have hlen : H.rows.length = T.rows.length := hN
  simp only [samples, List.flatMap_cons, List.flatMap_nil, List.append_nil, products]
  cases wc with
  | none =>
    simp only [Entering, weightedR, Except.ok.injEq] at he
    subst he
    constructor
    · exact (plain_HH hr i j _ _ hlen).imp fun _ _ h => h.mono hr.nonneg (by omega)
    · exact (plain_HT hr i j _ _ hlen).imp fun _ _ h => h.mono hr.nonneg (by omega)
  | some w =>
    obtain ⟨hl, hpos⟩ := hw w rfl
    simp only at hl
    have hl2 : w.length = (T.map (env.cast p)).nrows := by rw [hl, hN]; simp [Mat.nrows, Mat.map]
    simp only [Entering, weightedR, weighted, scaleRows, List.length_map, hl, if_true, bind, Except.bind, pure, Except.pure] at he
    rw [← hl, hl2] at he
    simp only [if_true, Except.ok.injEq] at he
    subst he
    exact ⟨weighted_HH hr hsq i j _ _ _ hlen hl hpos, weighted_HT hr hsq i j _ _ _ hlen hl hpos⟩

/-- The terms of one batch without weights. -/
theorem entering_plain {env : Env K} {p : Prec} {u : K} (hr : Rounding (env.cast p) u) {L c : Nat} {b : HBatch K}
    (hf : Fit L c b) (hw : b.wc = none) {q : Mat K × Mat K} (he : Entering env p b q) (i j : Nat) :
    List.Forall₂ (fun (t : Term K) (s : List K × List K × K) => WithinDrift u 0 (s.2.2 * (s.1.getD i 0 * s.1.getD j 0)) t.value)
      (products q.1 q.1 i j) (samples [b]) ∧
    List.Forall₂ (fun (t : Term K) (s : List K × List K × K) => WithinDrift u 1 (s.2.2 * (s.1.getD i 0 * s.2.1.getD j 0)) t.value)
      (products q.1 q.2 i j) (samples [b]) := by
  obtain ⟨_, _, _, _, hN, _⟩ := hf
  obtain ⟨H, T, wc⟩ := b
  simp only at hw
  subst hw
  simp only [samples, List.flatMap_cons, List.flatMap_nil, List.append_nil, products]
  simp only [Entering, weightedR, Except.ok.injEq] at he
  subst he
  exact ⟨plain_HH hr i j _ _ hN, plain_HT hr i j _ _ hN⟩

theorem feed_terms {R : Term K → List K × List K × K → Prop} {env : Env K} {p : Prec} {P : HBatch K → Prop}
    {A B : Mat K × Mat K → Mat K} {i j : Nat}
    (h : ∀ b q, P b → Entering env p b q → List.Forall₂ R (products (A q) (B q) i j) (samples [b]))
    {bs : List (HBatch K)} {qs : List (Mat K × Mat K)} (hq : List.Forall₂ (Entering env p) bs qs) (hP : ∀ b ∈ bs, P b) :
    List.Forall₂ R (qs.flatMap fun q => products (A q) (B q) i j) (samples bs) := by
  induction hq with
  | nil => exact .nil
  | @cons b q bs qs h1 _ ih =>
    rw [samples_cons, List.flatMap_cons]
    exact List.rel_append (h b q (hP b List.mem_cons_self) h1) (ih fun b hb => hP b (List.mem_cons_of_mem _ hb))

theorem samples_weight_nonneg {L c : Nat} {bs : List (HBatch K)} (hf : ∀ b ∈ bs, Fit L c b) :
    ∀ s ∈ samples bs, 0 ≤ s.2.2 := by
  intro s hs
  simp only [samples, List.mem_flatMap] at hs
  obtain ⟨b, hb, hs⟩ := hs
  have h2 := (List.of_mem_zip (a := s.1) (b := s.2) (by simpa using hs)).2
  have h3 := (List.of_mem_zip (a := s.2.1) (b := s.2.2) (by simpa using h2)).2
  cases hw : b.wc with
  | none => rw [hw] at h3; simp at h3; rw [h3.2]; exact zero_le_one
  | some w =>
    rw [hw] at h3
    exact ((hf b hb).2.2.2.2.2 w hw).2 _ h3

theorem Sums.fixed {r : K → K} (hr : ∀ x, r (r x) = r x) {a v : K} {ts : List (Term K)} (h : Sums r (.val a :: ts) v)
    (ha : r a = a) : r v = v := by
  generalize hl : Term.val a :: ts = l at h
  cases h with
  | val x => simp at hl; rw [← hl.1, ha]
  | prod x y => exact hr _
  | add => exact hr _
  | fma => exact hr _

theorem get_map {r : K → K} (h0 : r 0 = 0) (M : Mat K) (i j : Nat) : (M.map r).get i j = r (M.get i j) := by
  unfold Mat.get Mat.map
  simp only [List.getD_eq_getElem?_getD, List.getElem?_map]
  cases M.rows[i]? with
  | none => simp [h0]
  | some l => simp only [Option.map_some, Option.getD_some, List.getElem?_map]; cases l[j]? <;> simp [h0]

theorem gram_symm (ss : List (List K × List K × K)) (i j : Nat) : gram ss i j = gram ss j i := by
  unfold gram; congr 1; apply List.map_congr_left; intros; ring

theorem absGram_symm (ss : List (List K × List K × K)) (i j : Nat) : absGram ss i j = absGram ss j i := by
  unfold absGram; congr 1; apply List.map_congr_left; intro s _; rw [mul_comm (s.1.getD i 0)]

/-- Entries of the completed matrix come from updated entries. -/
theorem getCorrR_entry {env : Env K} {n : NNet K} {HH0 HT0 HH HT : Mat K} {L : Nat} (h0 : env.cast n.prec 0 = 0)
    (hc : n.corr = some (HH0, HT0)) (hr : HH0.nrows = L) (hcol : HH0.cols = L)
    (hfix : ∀ i < L, ∀ j < L, i ≤ j → env.cast n.prec (HH0.get i j) = HH0.get i j)
    (hlow : ∀ i < L, ∀ j < L, ¬ n.updates i j → i ≠ j → HH0.get i j = 0)
    (hg : n.getCorrR env = some (HH, HT)) :
    HT = HT0 ∧ HH.nrows = L ∧ HH.cols = L ∧ ∀ i < L, ∀ j < L,
      (n.updates i j ∧ HH.get i j = HH0.get i j) ∨ (n.updates j i ∧ HH.get i j = HH0.get j i) := by
  unfold NNet.getCorrR at hg
  rw [hc] at hg
  simp only [Option.map_some, Option.some.injEq] at hg
  have hupd : ∀ i j, i ≤ j → n.updates i j := by
    intro i j hij
    unfold NNet.updates
    split <;> trivial
  cases hs : n.solver with
  | basic =>
    rw [hs] at hg
    simp only [Prod.mk.injEq] at hg
    obtain ⟨rfl, rfl⟩ := hg
    refine ⟨rfl, hr, hcol, fun i _ j _ => .inl ⟨?_, rfl⟩⟩
    unfold NNet.updates; rw [hs]; trivial
  | python =>
    rw [hs] at hg
    simp only [Prod.mk.injEq] at hg
    obtain ⟨rfl, rfl⟩ := hg
    refine ⟨rfl, by simp [Mat.map, Mat.add, Mat.nrows, Mat.ofFn]; exact hr, by simp [Mat.map, Mat.add, Mat.ofFn]; exact hcol,
      fun i hi j hj => ?_⟩
    have hu : ∀ i j, n.updates i j ↔ i ≤ j := fun i j => by unfold NNet.updates; rw [hs]
    rw [get_map h0, Mat.get_add (by omega) (by omega)]
    unfold triu1T
    rw [Mat.get_ofFn_lt (by omega) (by omega)]
    by_cases hij : i ≤ j
    · rw [if_neg (by omega), add_zero, hfix i hi j hj hij]
      exact .inl ⟨hupd i j hij, rfl⟩
    · rw [if_pos (by omega), hlow i hi j hj (by rw [hu]; omega) (by omega), zero_add, hfix j hj i hi (by omega)]
      exact .inr ⟨hupd j i (by omega), rfl⟩
  | cuda =>
    rw [hs] at hg
    simp only [Prod.mk.injEq] at hg
    obtain ⟨rfl, rfl⟩ := hg
    refine ⟨rfl, by simp [Mat.map, Mat.add, triu, Mat.nrows, Mat.ofFn]; exact hr,
      by simp [Mat.map, Mat.add, triu, Mat.ofFn]; exact hcol, fun i hi j hj => ?_⟩
    rw [get_map h0, Mat.get_add (by simp [triu, Mat.nrows, Mat.ofFn]; exact (by omega : i < HH0.nrows))
      (by simp [triu, Mat.ofFn]; omega)]
    unfold triu1T triu
    rw [Mat.get_ofFn_lt (by omega) (by omega), Mat.get_ofFn_lt (by omega) (by omega)]
    by_cases hij : i ≤ j
    · rw [if_pos hij, if_neg (by omega), add_zero, hfix i hi j hj hij]
      exact .inl ⟨hupd i j hij, rfl⟩
    · rw [if_neg hij, if_pos (by omega), zero_add, hfix j hj i hi (by omega)]
      exact .inr ⟨hupd j i (by omega), rfl⟩

/-- Error of the accumulated matrices, when the terms are known up to `a` resp. `b` roundings. -/
theorem feed_bounds {env : Env K} {u : K} {n n' : NNet K} {L a b : Nat} (hr : Rounding (env.cast n.prec) u)
    (hL : n.L = some L) (h0 : n.corr = none) (hnorm : env.cast n.prec n.norm = n.norm)
    {bs : List (HBatch K)} (hbs : bs ≠ []) (hf : ∀ b ∈ bs, Fit L n.outputs b)
    (hn : ∀ b' q, b' ∈ bs → Entering env n.prec b' q → ∀ i j,
      List.Forall₂ (fun (t : Term K) (s : List K × List K × K) => WithinDrift u a (s.2.2 * (s.1.getD i 0 * s.1.getD j 0)) t.value)
        (products q.1 q.1 i j) (samples [b']) ∧
      List.Forall₂ (fun (t : Term K) (s : List K × List K × K) => WithinDrift u b (s.2.2 * (s.1.getD i 0 * s.2.1.getD j 0)) t.value)
        (products q.1 q.2 i j) (samples [b']))
    (h : n.FeedR env bs n') {HH HT : Mat K} (hg : n'.getCorrR env = some (HH, HT)) :
    (HH.nrows = L ∧ HH.cols = L ∧ HT.nrows = L ∧ HT.cols = n.outputs) ∧
    (∀ i < L, ∀ j < L, |HH.get i j - ((if i = j then n.norm else 0) + gram (samples bs) i j)|
      ≤ drift u ((samples bs).length + 1 + a) * ((if i = j then |n.norm| else 0) + absGram (samples bs) i j)) ∧
    (∀ i < L, ∀ j < n.outputs, |HT.get i j - cross (samples bs) i j|
      ≤ drift u ((samples bs).length + 1 + b) * absCross (samples bs) i j) := by
  obtain ⟨qs, f1, f2⟩ := feed_some (feed_none hbs h h0) rfl
  obtain ⟨HH0, HT0, g1, ⟨g2, g3⟩, ⟨g4, g5⟩, g6, g7⟩ := f2.corr _ _ rfl
  have hs := f2.solver
  have hp := f2.prec
  simp only [hL, Option.getD_some] at g2 g3 g4 g5 g6 g7 hs hp
  have hd : (Mat.diag L n.norm).nrows = L := by simp [Mat.diag, Mat.nrows, Mat.ofFn]
  have hd' : (Mat.diag L n.norm).cols = L := by simp [Mat.diag, Mat.ofFn]
  have hz : (Mat.zeros L n.outputs : Mat K).nrows = L := by simp [Mat.zeros, Mat.nrows, Mat.ofFn]
  have hz' : (Mat.zeros L n.outputs : Mat K).cols = n.outputs := by simp [Mat.zeros, Mat.ofFn]
  rw [hd] at g2 g6; rw [hd'] at g3 g6; rw [hz] at g4 g7; rw [hz'] at g5 g7
  have hz0 := hr.zero
  have hupd : ∀ i j, n'.updates i j ↔ n.updates i j := fun i j => updates_congr hs hp i j
  have hww := samples_weight_nonneg hf
  have hle : ∀ i j, i ≤ j → n.updates i j := by
    intro i j hij
    unfold NNet.updates
    split <;> trivial
  obtain ⟨e1, e2, e3, e4⟩ := getCorrR_entry (L := L) (by rw [hp]; exact hz0) g1 g2 g3
    (by
      intro i hi j hj hij
      rw [hp]
      refine Sums.fixed hr.again ((g6 i hi j hj).1 (hle i j hij)) ?_
      rw [Mat.get_diag hi hj]
      split
      · exact hnorm
      · exact hz0)
    (by
      intro i hi j hj hu hne
      rw [(g6 i hi j hj).2 (fun c => hu ((hupd i j).2 c)), Mat.get_diag hi hj, if_neg hne]) hg
  subst e1
  have key : ∀ i < L, ∀ j < L, n.updates i j → |HH0.get i j - ((if i = j then n.norm else 0) + gram (samples bs) i j)|
      ≤ drift u ((samples bs).length + 1 + a) * ((if i = j then |n.norm| else 0) + absGram (samples bs) i j) := by
    intro i hi j hj hu
    have hS := (g6 i hi j hj).1 hu
    rw [Mat.get_diag hi hj] at hS
    have := Sums.near hr (f := fun s : List K × List K × K => s.2.2 * (s.1.getD i 0 * s.1.getD j 0))
      (g := fun s : List K × List K × K => s.2.2 * |s.1.getD i 0 * s.1.getD j 0|) (k := a)
      (fun s hs => by rw [abs_mul, abs_of_nonneg (hww s hs)]) hS
      (feed_terms (P := fun b' => b' ∈ bs) (A := Prod.fst) (B := Prod.fst)
        (fun b' q hb' he => (hn b' q hb' he i j).1) f1 (fun _ h => h))
    have e : |if i = j then n.norm else 0| = if i = j then |n.norm| else 0 := by split <;> simp
    rw [e] at this
    exact this
  refine ⟨⟨e2, e3, g4, g5⟩, fun i hi j hj => ?_, fun i hi j hj => ?_⟩
  · rcases e4 i hi j hj with ⟨hu, he⟩ | ⟨hu, he⟩
    · rw [he]; exact key i hi j hj ((hupd i j).1 hu)
    · rw [he]
      have := key j hj i hi ((hupd j i).1 hu)
      rw [gram_symm, absGram_symm (samples bs) i j]
      simpa only [eq_comm (a := i) (b := j)] using this
  · have hS := g7 i hi j hj
    rw [Mat.get_zeros] at hS
    have := Sums.near hr (f := fun s : List K × List K × K => s.2.2 * (s.1.getD i 0 * s.2.1.getD j 0))
      (g := fun s : List K × List K × K => s.2.2 * |s.1.getD i 0 * s.2.1.getD j 0|) (k := b)
      (fun s hs => by rw [abs_mul, abs_of_nonneg (hww s hs)]) hS
      (feed_terms (P := fun b' => b' ∈ bs) (A := Prod.fst) (B := Prod.snd)
        (fun b' q hb' he => (hn b' q hb' he i j).2) f1 (fun _ h => h))
    simp only [zero_add, abs_zero] at this
    exact this

/-! ### Runs exist -/

theorem exists_sums (r : K → K) (a : K) (ts : List (Term K)) : ∃ v, Sums r (.val a :: ts) v := by
  have : ∃ v, Sums r (ts ++ [.val a]) v := by
    induction ts with
    | nil => exact ⟨a, .val a⟩
    | cons t ts ih =>
      obtain ⟨v, hv⟩ := ih
      cases t with
      | val x => exact ⟨_, .add (.val x) hv (List.Perm.refl _)⟩
      | prod x y => exact ⟨_, .add (.prod x y) hv (List.Perm.refl _)⟩
  obtain ⟨v, hv⟩ := this
  have hp : (Term.val a :: ts).Perm (ts ++ [.val a]) := (List.perm_append_comm (l₁ := [Term.val a]) (l₂ := ts))
  generalize hl : ts ++ [Term.val a] = l at hv hp
  cases hv with
  | val x =>
    have h1 : ts = [] := by
      have := congrArg List.length hl; simpa using this
    subst h1
    simp at hl
    exact ⟨a, .val a⟩
  | prod x y =>
    have h1 : ts = [] := by
      have := congrArg List.length hl; simpa using this
    subst h1
    simp at hl
  | add s1 s2 h => exact ⟨_, .add s1 s2 (hp.trans h)⟩
  | fma x y s1 h => exact ⟨_, .fma x y s1 (hp.trans h)⟩

theorem exists_matrix (r c : Nat) (P : Nat → Nat → K → Prop) (h : ∀ i j, ∃ v, P i j v) :
    ∃ M : Mat K, M.WF ∧ M.nrows = r ∧ M.cols = c ∧ ∀ i < r, ∀ j < c, P i j (M.get i j) := by
  choose f hf using h
  refine ⟨Mat.ofFn r c f, Mat.ofFn_WF _ _ _, by simp [Mat.nrows, Mat.ofFn], by simp [Mat.ofFn], fun i hi j hj => ?_⟩
  rw [Mat.get_ofFn_lt hi hj]; exact hf i j

theorem exists_addBatchR (env : Env K) (n : NNet K) (L : Nat) (hL : n.L = some L)
    (hc : ∀ c, n.corr = some c → c.1.cols = L) (b : HBatch K) (hf : Fit L n.outputs b) :
    ∃ n', n.AddBatchR env b.H b.T b.wc n' ∧ n'.L = n.L ∧ n'.outputs = n.outputs ∧ ∀ c, n'.corr = some c → c.1.cols = L := by
  obtain ⟨_, _, h3, h4, h5, h6⟩ := hf
  have hq : ∃ H' T', weightedR env n.prec b.wc b.H (b.T.map (env.cast n.prec)) = .ok (H', T') ∧ H'.nrows = T'.nrows ∧
      T'.cols = n.outputs ∧ H'.cols = L := by
    cases hw : b.wc with
    | none => exact ⟨_, _, rfl, by simpa [Mat.nrows, Mat.map] using h5, by simpa [Mat.map] using h4, h3⟩
    | some w =>
      have hl := (h6 w hw).1
      have hl2 : w.length = (b.T.map (env.cast n.prec)).nrows := by rw [hl, h5]; simp [Mat.nrows, Mat.map]
      let S (M : Mat K) : Mat K := Mat.map (env.cast n.prec)
        ⟨M.cols, List.zipWith (fun c r => r.map (c * ·)) (w.map fun x => env.cast n.prec (env.sqrt x)) M.rows⟩
      have hq : weightedR env n.prec (some w) b.H (b.T.map (env.cast n.prec))
          = .ok (S b.H, S (b.T.map (env.cast n.prec))) := by
        simp only [weightedR, weighted, scaleRows, List.length_map, bind, Except.bind, pure, Except.pure]
        rw [if_pos hl]
        simp only
        rw [if_pos hl2]
      refine ⟨_, _, hq, ?_, ?_, ?_⟩
      · have : b.H.rows.length = w.length := hl.symm
        have h' : b.T.rows.length = w.length := by rw [hl]; exact h5.symm
        simp [S, Mat.nrows, Mat.map, this, h']
      · simpa [S, Mat.map] using h4
      · simpa [S, Mat.map] using h3
  obtain ⟨H', T', q1, q2, q3, q4⟩ := hq
  obtain ⟨⟨HH, HT⟩, hcorr⟩ : ∃ c, c = n.corr.getD (Mat.diag (n.L.getD 0) n.norm, Mat.zeros (n.L.getD 0) n.outputs) := ⟨_, rfl⟩
  have hHH : HH.cols = L := by
    cases hn : n.corr with
    | none =>
      rw [hn] at hcorr
      simp only [Option.getD_none, Prod.mk.injEq] at hcorr
      rw [hcorr.1, hL]; simp [Mat.diag, Mat.ofFn]
    | some c =>
      rw [hn] at hcorr
      simp only [Option.getD_some] at hcorr
      have := hc c hn
      rw [← hcorr] at this; exact this
  classical
  obtain ⟨HH', w1, w2, w3, w4⟩ := exists_matrix HH.nrows HH.cols
    (fun i j v => (n.updates i j → Sums (env.cast n.prec) (.val (HH.get i j) :: products H' H' i j) v) ∧
      (¬ n.updates i j → v = HH.get i j)) (fun i j => by
        obtain ⟨v, hv⟩ := exists_sums (env.cast n.prec) (HH.get i j) (products H' H' i j)
        by_cases hu : n.updates i j
        · exact ⟨v, fun _ => hv, fun h => absurd hu h⟩
        · exact ⟨HH.get i j, fun h => absurd h hu, fun _ => rfl⟩)
  obtain ⟨HT', v1, v2, v3, v4⟩ := exists_matrix HT.nrows HT.cols
    (fun i j v => Sums (env.cast n.prec) (.val (HT.get i j) :: products H' T' i j) v)
    (fun i j => exists_sums _ _ _)
  refine ⟨{ n with corr := some (HH', HT') }, ⟨H', T', HH, HT, HH', HT', q1, q2, q3, hcorr, by omega, rfl, ⟨w1, w2, w3⟩,
    ⟨v1, v2, v3⟩, w4, v4⟩, rfl, rfl, ?_⟩
  intro c hc'
  simp only [Option.some.injEq] at hc'
  rw [← hc']; simp only; omega

/-- A run exists for every list of fitting batches. -/
theorem exists_feedR (env : Env K) (L : Nat) : ∀ (bs : List (HBatch K)) (n : NNet K), n.L = some L →
    (∀ c, n.corr = some c → c.1.cols = L) → (∀ b ∈ bs, Fit L n.outputs b) → ∃ n', n.FeedR env bs n'
  | [], n, _, _, _ => ⟨n, .nil n⟩
  | b :: bs, n, hL, hc, hf => by
    obtain ⟨m, h1, h2, h3, h4⟩ := exists_addBatchR env n L hL hc b (hf b List.mem_cons_self)
    obtain ⟨n', h⟩ := exists_feedR env L bs m (h2.trans hL) h4 (fun b hb => by
      rw [h3]; exact hf b (List.mem_cons_of_mem _ hb))
    exact ⟨n', .cons h1 h⟩

end Hpelm
