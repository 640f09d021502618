import Verif.Props.C06_C08_Structure
import Verif.Props.C30_HError
import Verif.Lemmas.OnDisk
import Verif.Props.C42_C45_OutOfMemory
import Verif.Lemmas.Invariant

/-!
# Lemmas: validation from correlation matrices
-/

namespace Hpelm
open Spec Props
variable {K : Type} [Field K] [LinearOrder K] [IsStrictOrderedRing K]
set_option linter.unusedSectionVars false

/-! ### Leading blocks -/

theorem byType_range (ks : List Nat) (s l : Nat) :
    byType ks s (List.range l) = List.range' s (min (l - s) ks.sum) := by
  induction ks generalizing s with
  | nil => simp [byType]
  | cons k ks ih =>
    simp only [byType]
    rw [ih]
    have h1 : (List.range l).filter (fun i => decide (s ≤ i ∧ i < s + k)) = List.range' s (min (l - s) k) := by
      rcases Nat.lt_or_ge l s with h | h
      · rw [show l - s = 0 by omega]
        simp only [Nat.zero_min, List.range'_zero]
        rw [List.filter_eq_nil_iff]
        intro a ha
        rw [List.mem_range] at ha
        simp
        omega
      · obtain ⟨d, rfl⟩ := Nat.exists_eq_add_of_le h
        rw [List.range_eq_range', show List.range' 0 (s + d) = List.range' 0 s ++ List.range' s d by
          have := List.range'_append (s := 0) (m := s) (n := d) (step := 1)
          simpa using this.symm]
        rw [List.filter_append]
        have a1 : (List.range' 0 s).filter (fun i => decide (s ≤ i ∧ i < s + k)) = [] := by
          rw [List.filter_eq_nil_iff]
          intro a ha
          rw [List.mem_range'_1] at ha
          simp
          omega
        rw [a1, List.nil_append, show s + d - s = d by omega]
        rcases Nat.le_total d k with h2 | h2
        · rw [min_eq_left h2, List.filter_eq_self]
          intro a ha
          rw [List.mem_range'_1] at ha
          simp
          omega
        · rw [min_eq_right h2]
          obtain ⟨f, rfl⟩ := Nat.exists_eq_add_of_le h2
          have e : List.range' s (k + f) = List.range' s k ++ List.range' (s + k) f := by
            have := List.range'_append (s := s) (m := k) (n := f) (step := 1)
            simpa using this.symm
          rw [e, List.filter_append]
          have b1 : (List.range' s k).filter (fun i => decide (s ≤ i ∧ i < s + k)) = List.range' s k := by
            rw [List.filter_eq_self]
            intro a ha
            rw [List.mem_range'_1] at ha
            simp
            omega
          have b2 : (List.range' (s + k) f).filter (fun i => decide (s ≤ i ∧ i < s + k)) = [] := by
            rw [List.filter_eq_nil_iff]
            intro a ha
            rw [List.mem_range'_1] at ha
            simp
            omega
          rw [b1, b2, List.append_nil]
    rw [h1]
    rcases Nat.le_total (l - s) k with h2 | h2
    · rw [min_eq_left h2, show l - (s + k) = 0 by omega]
      simp only [Nat.zero_min, List.range'_zero, List.append_nil, List.sum_cons]
      rw [min_eq_left (by omega)]
    · rw [min_eq_right h2]
      have := List.range'_append (s := s) (m := k) (n := min (l - (s + k)) ks.sum) (step := 1)
      simp only [Nat.one_mul] at this
      rw [this, List.sum_cons]
      congr 1
      omega

omit [IsStrictOrderedRing K] in
theorem lead_nrows (M : Mat K) (r c : Nat) : (M.lead r c).nrows = min r M.nrows := by
  simp [Mat.lead, Mat.nrows]

omit [IsStrictOrderedRing K] in
theorem lead_cols (M : Mat K) (r c : Nat) : (M.lead r c).cols = min c M.cols := rfl

omit [IsStrictOrderedRing K] in
theorem lead_WF {M : Mat K} (h : M.WF) (r c : Nat) : (M.lead r c).WF := by
  intro row hr
  simp only [Mat.lead, List.mem_map] at hr
  obtain ⟨a, ha, rfl⟩ := hr
  have := h a (List.mem_of_mem_take ha)
  simp [Mat.lead, this]

theorem lead_get {M : Mat K} {r c i j : Nat} (hi : i < r) (hj : j < c) : (M.lead r c).get i j = M.get i j := by
  unfold Mat.get Mat.lead
  simp only
  rcases Nat.lt_or_ge i M.rows.length with h | h
  · have h1 : i < ((M.rows.take r).map (List.take c)).length := by simp; omega
    rw [List.getD_eq_getElem _ _ h1, List.getD_eq_getElem _ _ h]
    simp only [List.getElem_map, List.getElem_take]
    simp only [List.getD, List.getElem?_take, if_pos hj]
  · have e1 : ((M.rows.take r).map (List.take c)).getD i [] = [] := by
      apply List.getD_eq_default
      simp
      omega
    rw [e1, List.getD_eq_default _ _ h]

theorem map_range_getD {α : Type} (l : List α) (d : α) (m : Nat) (h : m ≤ l.length) :
    (List.range m).map (fun i => l.getD i d) = l.take m := by
  apply List.ext_getElem
  · simp; omega
  · intro i h1 h2
    simp only [List.length_map, List.length_range] at h1
    simp only [List.getElem_map, List.getElem_range, List.getElem_take]
    rw [List.getD_eq_getElem _ _ (by omega)]

theorem lead_selCols {M : Mat K} (h : M.WF) (l : Nat) : M.selCols (List.range (min l M.cols)) = M.lead M.nrows l := by
  unfold Mat.selCols Mat.lead
  simp only [List.length_range]
  congr 1
  have : M.rows.take M.nrows = M.rows := List.take_length
  rw [this]
  apply List.map_congr_left
  intro r hr
  have hl := h r hr
  rw [map_range_getD _ _ _ (by omega)]
  rcases Nat.le_total l M.cols with h1 | h1
  · rw [min_eq_left h1]
  · rw [min_eq_right h1, List.take_of_length_le (by omega), List.take_of_length_le (by omega)]

/-! ### Errors and confusion matrices of a batch -/

/-- Outside weighted classification, the error of well-shaped data is the average of an error per sample. -/
theorem elmError_mean (cls : Option String) (wc : Option (List (Option K))) (hcls : cls ≠ some "wc") (c : Nat) (hc : 0 < c) :
    ∃ q : List K × List K → K, ∀ T Y : Mat K, T.WF → Y.WF → T.nrows = Y.nrows → T.cols = c → Y.cols = c → 0 < T.nrows →
      elmError cls wc T Y = .ok (((T.rows.zip Y.rows).map q).sum / T.nrows) := by
  have main : ∀ (g : List K → List K → List K) (d : Nat), 0 < d → ∀ T Y : Mat K, T.nrows = Y.nrows → 0 < T.nrows →
      (∀ p ∈ T.rows.zip Y.rows, (g p.1 p.2).length = d) →
      notNan (mean? (((T.rows.zip Y.rows).map fun p => g p.1 p.2).flatten)) =
        .ok (((T.rows.zip Y.rows).map fun p => (g p.1 p.2).sum / d).sum / T.nrows) := by
    intro g d hd T Y hr hN hg
    have hl : (T.rows.zip Y.rows).length = T.nrows := by
      have : T.rows.length = Y.rows.length := hr
      simp [← this, Mat.nrows]
    rw [elmErr_mean g d T.nrows hd hN _ hl hg]
    have hdK : (d : K) ≠ 0 := by exact_mod_cast hd.ne'
    have hNK : (T.nrows : K) ≠ 0 := by exact_mod_cast hN.ne'
    rw [show (fun p : List K × List K => (g p.1 p.2).sum / (d : K)) = fun p => (g p.1 p.2).sum * (d : K)⁻¹ by
      funext p; rw [div_eq_mul_inv], List.sum_map_mul_right]
    field_simp
  have mem : ∀ T Y : Mat K, T.WF → Y.WF → T.cols = c → Y.cols = c → ∀ p ∈ T.rows.zip Y.rows, p.1.length = c ∧ p.2.length = c := by
    intro T Y hT hY h1 h2 p hp
    obtain ⟨a, b⟩ := p
    have := List.of_mem_zip hp
    exact ⟨by rw [← h1]; exact hT _ this.1, by rw [← h2]; exact hY _ this.2⟩
  by_cases c1 : cls = some "c"
  · refine ⟨fun p => ([b2k (argmax p.2 != argmax p.1)] : List K).sum / ((1 : Nat) : K), fun T Y hT hY hr h1 h2 hN => ?_⟩
    · unfold elmError
      rw [if_neg (by rw [hr, h1, h2]; simp), if_pos c1]
      have := main (fun t y => [b2k (argmax y != argmax t)]) 1 one_pos T Y hr hN (by simp)
      rw [← this]
      unfold misses
      rw [List.map_zipWith, ← List.map_uncurry_zip_eq_zipWith, ← List.flatMap, flatMap_single]
      rfl
  by_cases c3 : cls = some "ml"
  · refine ⟨fun p => (List.zipWith (fun t y => b2k ((decide (1 / 2 < y)) != (decide (1 / 2 < t)))) p.1 p.2 : List K).sum / (c : K), fun T Y hT hY hr h1 h2 hN => ?_⟩
    · unfold elmError
      rw [if_neg (by rw [hr, h1, h2]; simp), if_neg c1, if_neg hcls, if_pos c3]
      have := main (List.zipWith fun t y => b2k ((decide (1 / 2 < y)) != (decide (1 / 2 < t)))) c hc T Y hr hN (by
        intro p hp
        have := mem T Y hT hY h1 h2 p hp
        simp [this.1, this.2])
      rw [← this]
      congr 2
      unfold labelMisses
      rw [List.map_flatten, List.map_zipWith, ← List.map_uncurry_zip_eq_zipWith]
      congr 2
      funext p
      simp only [Function.uncurry]
      rw [List.map_zipWith]
  · refine ⟨fun p => (List.zipWith (fun t y => (y - t) * (y - t)) p.1 p.2).sum / (c : K), fun T Y hT hY hr h1 h2 hN => ?_⟩
    · unfold elmError
      rw [if_neg (by rw [hr, h1, h2]; simp), if_neg c1, if_neg hcls, if_neg c3]
      have := main (List.zipWith fun t y => (y - t) * (y - t)) c hc T Y hr hN (by
        intro p hp
        have := mem T Y hT hY h1 h2 p hp
        simp [this.1, this.2])
      rw [← this]
      congr 2
      unfold sqErrs
      rw [← List.map_uncurry_zip_eq_zipWith]
      rfl

/-- A sample counts for entry (i, j) of the confusion matrix. -/
def confQ (cls : Option String) (i j : Nat) (p : List K × List K) : Bool :=
  if cls = some "ml" then decide (1 / 2 < p.1.getD i 0 ∧ 1 / 2 < p.2.getD j 0) else decide (argmax p.1 = i ∧ argmax p.2 = j)

/-- A confusion matrix after the (target, prediction) pairs `P`; left alone in regression. -/
def confPlus (cls : Option String) (o : Nat) (C : Mat K) (P : List (List K × List K)) : Mat K :=
  if cls.isSome then Mat.ofFn o o fun i j => C.get i j + ((P.countP (confQ cls i j) : Nat) : K) else C

theorem confPlus_append (cls : Option String) (o : Nat) (C : Mat K) (P Q : List (List K × List K)) :
    confPlus cls o (confPlus cls o C P) Q = confPlus cls o C (P ++ Q) := by
  unfold confPlus
  by_cases h : cls.isSome
  · rw [if_pos h, if_pos h, if_pos h]
    apply Mat.ext_get (Mat.ofFn_WF _ _ _) (Mat.ofFn_WF _ _ _) (by simp) (by simp)
    intro i j hi hj
    simp only [Mat.ofFn_nrows, Mat.ofFn_cols] at hi hj
    rw [Mat.get_ofFn_lt hi hj, Mat.get_ofFn_lt hi hj, Mat.get_ofFn_lt hi hj, List.countP_append]
    push_cast
    ring
  · rw [if_neg h, if_neg h, if_neg h]

theorem confPlus_nil {cls : Option String} {o : Nat} {C : Mat K} (h : C.WF) (h1 : C.nrows = o) (h2 : C.cols = o) : confPlus cls o C [] = C := by
  unfold confPlus
  split
  · apply Mat.ext_get (Mat.ofFn_WF _ _ _) h (by simp [h1]) (by simp [h2])
    intro i j hi hj
    simp only [Mat.ofFn_nrows, Mat.ofFn_cols] at hi hj
    rw [Mat.get_ofFn_lt hi hj]
    simp
  · rfl

theorem confPlus_shape {cls : Option String} {o : Nat} {C : Mat K} (h : C.WF) (h1 : C.nrows = o) (h2 : C.cols = o) (P : List (List K × List K)) :
    (confPlus cls o C P).WF ∧ (confPlus cls o C P).nrows = o ∧ (confPlus cls o C P).cols = o := by
  unfold confPlus
  split
  · exact ⟨Mat.ofFn_WF _ _ _, by simp, by simp⟩
  · exact ⟨h, h1, h2⟩

theorem confLoop_WF (count : List (List K) → List (List K) → Nat → Nat → Nat) (batch : Int) (C : Nat) (T Y : Mat K) (bs : List Nat)
    (conf : Mat K) (h : conf.WF) : (confLoop count batch C T Y bs conf).WF := by
  induction bs generalizing conf with
  | nil => exact h
  | cons b bs ih => exact ih _ (Mat.add_WF _ _)

theorem confusionM_confPlus {e : ELM K} {T Y : Mat K} (h : Fits e T Y) (hb : 0 < e.batch) (hc : e.classification = some "c" ∨ e.classification = some "ml") :
    e.confusionM T Y = .ok (confPlus e.classification e.nnet.outputs (Mat.zeros e.nnet.outputs e.nnet.outputs) (T.rows.zip Y.rows)) := by
  have hm : e.classification ∈ [some "c", some "wc", some "ml"] := by rcases hc with h | h <;> rw [h] <;> simp
  obtain ⟨C, c1, c2, c3, c4⟩ := confusion_counts h hb hm (confQ e.classification) (by
    intro T Y i j
    unfold confQ
    by_cases hml : e.classification = some "ml"
    · simp only [if_pos hml]
      exact length_filter_countP _ _
    · simp only [if_neg hml]
      exact length_filter_countP _ _)
  have hw : C.WF := by
    have := confusionM_eq h hb hm
    rw [this] at c1
    injection c1 with c1
    rw [← c1]
    exact confLoop_WF _ _ _ _ _ _ _ (Mat.zeros_WF _ _)
  rw [c1]
  congr 1
  unfold confPlus
  rw [if_pos (by rcases hc with h | h <;> rw [h] <;> rfl)]
  apply Mat.ext_get hw (Mat.ofFn_WF _ _ _) (by simp [c2]) (by simp [c3])
  intro i j hi hj
  rw [c2] at hi
  rw [c3] at hj
  rw [c4 i j hi hj, Mat.get_ofFn_lt hi hj, Mat.get_zeros, zero_add]

theorem samplesOf_all (T : Mat K) : samplesOf T 0 T.nrows = T := by
  unfold samplesOf
  simp [Mat.nrows]

theorem vcUpdate_eq {e : ELM K} {Tb Hb Beta : Mat K} {w : K} {l : Nat} (hb : 0 < e.batch)
    (hcls : e.classification ∈ [none, some "c", some "ml"]) (hf : Fits e Tb ((Hb.lead Hb.nrows l).mul Beta)) (hn : 0 < Tb.nrows)
    {q : List K × List K → K}
    (hq : ∀ T Y : Mat K, T.WF → Y.WF → T.nrows = Y.nrows → T.cols = e.nnet.outputs → Y.cols = e.nnet.outputs → 0 < T.nrows →
      elmError e.classification e.wc T Y = .ok (((T.rows.zip Y.rows).map q).sum / T.nrows))
    (a : K) {C : Mat K} (h1 : C.nrows = e.nnet.outputs) (h2 : C.cols = e.nnet.outputs) :
    vcUpdate e Tb Hb w l Beta (some a, C) =
      .ok (some (a + ((Tb.rows.zip ((Hb.lead Hb.nrows l).mul Beta).rows).map q).sum / Tb.nrows * w),
        confPlus e.classification e.nnet.outputs C (Tb.rows.zip ((Hb.lead Hb.nrows l).mul Beta).rows)) := by
  have hnw : e.classification ≠ some "wc" := by
    intro h
    rw [h] at hcls
    simp at hcls
  have hrc : rangeCount Tb.nrows 0 none = Tb.nrows := by simp [rangeCount]
  have herr := (hError_range e.classification e.wc e.batch Tb _ 0 none hf.wfT hf.wfY hf.rows (by rw [hf.colsT, hf.colsY])
    (by rw [hf.colsT]; exact hf.pos) hb (le_refl 0) (by rw [hrc]; omega) (fun h => absurd h hnw)
    (((Tb.rows.zip ((Hb.lead Hb.nrows l).mul Beta).rows).map q).sum / Tb.nrows)).2 (by
      rw [hrc]
      simp only [Int.toNat_zero, Int.toNat_natCast]
      rw [samplesOf_all, hf.rows, samplesOf_all, hq _ _ hf.wfT hf.wfY hf.rows hf.colsT hf.colsY hn, hf.rows])
  unfold vcUpdate
  simp only [herr, bind, Except.bind]
  by_cases hs : e.classification.isSome
  · rw [if_pos hs]
    have hc : e.classification = some "c" ∨ e.classification = some "ml" := by
      simp only [List.mem_cons, List.not_mem_nil, or_false] at hcls
      rcases hcls with h | h | h
      · rw [h] at hs; cases hs
      · exact Or.inl h
      · exact Or.inr h
    rw [confusionM_confPlus hf hb hc]
    simp only [pure, Except.pure]
    congr 2
    unfold confPlus
    rw [if_pos hs, if_pos hs]
    apply Mat.ext_get (Mat.add_WF _ _) (Mat.ofFn_WF _ _ _) (by simp [h1]) (by simp [h2])
    intro i j hi hj
    simp only [Mat.add_nrows, Mat.add_cols, h1, h2] at hi hj
    rw [Mat.get_add (by rw [h1]; exact hi) (by rw [h2]; exact hj), Mat.get_ofFn_lt hi hj, Mat.get_ofFn_lt hi hj, Mat.get_zeros, zero_add]
  · rw [if_neg hs]
    simp only [pure, Except.pure]
    unfold confPlus
    rw [if_neg hs]

theorem mapM_zip_ok {α β γ : Type} (f : α → β) (g : α × β → Except PyErr γ) (h : α → γ) (l : List α) (hg : ∀ a ∈ l, g (a, f a) = .ok (h a)) :
    (l.zip (l.map f)).mapM g = .ok (l.map h) := by
  induction l with
  | nil => rfl
  | cons a l ih =>
    rw [List.map_cons, List.zip_cons_cons, List.mapM_cons, hg a List.mem_cons_self, ih fun b hb => hg b (List.mem_cons_of_mem _ hb)]
    rfl

theorem lead_mul_rows (w : Nat) (rows : List (List K)) (g : List K → List K) (l : Nat) (B : Mat K) :
    ((⟨w, rows.map g⟩ : Mat K).lead (Mat.nrows ⟨w, rows.map g⟩) l).mul B = ⟨B.cols, rows.map fun x => Mat.vecMul ((g x).take l) B⟩ := by
  unfold Mat.lead Mat.mul Mat.nrows
  simp only [List.take_length, List.map_map]
  rfl

theorem vcLoop_eq {env : Env K} {e : ELM K} (hb : 0 < e.batch) (hcls : e.classification ∈ [none, some "c", some "ml"]) (hpos : 0 < e.nnet.outputs)
    {X T H : Mat K} (hH : e.nnet.project env X = .ok H) (hN : X.nrows = T.nrows) (hT : T.WF) (hTc : T.cols = e.nnet.outputs)
    {cands : List (Nat × Mat K)} (hc : ∀ c ∈ cands, c.2.cols = e.nnet.outputs) {q : List K × List K → K}
    (hq : ∀ T Y : Mat K, T.WF → Y.WF → T.nrows = Y.nrows → T.cols = e.nnet.outputs → Y.cols = e.nnet.outputs → 0 < T.nrows →
      elmError e.classification e.wc T Y = .ok (((T.rows.zip Y.rows).map q).sum / T.nrows))
    (bs : List (Int × Int)) (hbs : ∀ b ∈ bs, 0 ≤ b.1 ∧ b.1 < b.2 ∧ b.2 ≤ T.nrows) (A : Nat × Mat K → K) (C : Nat × Mat K → Mat K)
    (h0 : ∀ c, (C c).WF) (h1 : ∀ c, (C c).nrows = e.nnet.outputs) (h2 : ∀ c, (C c).cols = e.nnet.outputs) :
    vcLoop env e X T cands bs (cands.map fun c => (some (A c), C c)) = .ok (cands.map fun c =>
      (some (A c + ((bs.flatMap fun b => pySlice (T.rows.zip ((H.lead H.nrows c.1).mul c.2).rows) b.1 b.2).map q).sum / (X.nrows : K)),
        confPlus e.classification e.nnet.outputs (C c) (bs.flatMap fun b => pySlice (T.rows.zip ((H.lead H.nrows c.1).mul c.2).rows) b.1 b.2))) := by
  obtain ⟨p3, g, rfl, hproj⟩ := project_rows hH
  induction bs generalizing A C with
  | nil =>
    unfold vcLoop
    congr 1
    apply List.map_congr_left
    intro c _
    rw [List.flatMap_nil, confPlus_nil (h0 c) (h1 c) (h2 c)]
    simp
  | cons b bs ih =>
    obtain ⟨k0, k1, k2⟩ := hbs b List.mem_cons_self
    unfold vcLoop
    have hpb : e.nnet.project env (X.slice b.1 b.2) = .ok ⟨width e.nnet.neurons, (pySlice X.rows b.1 b.2).map g⟩ := hproj _
    simp only [hpb, bind, Except.bind]
    obtain ⟨F, hF⟩ : ∃ F : Nat × Mat K → List (List K × List K), F = fun c =>
      pySlice (T.rows.zip (((⟨width e.nnet.neurons, X.rows.map g⟩ : Mat K).lead (Mat.nrows ⟨width e.nnet.neurons, X.rows.map g⟩) c.1).mul c.2).rows) b.1 b.2 := ⟨_, rfl⟩
    rw [mapM_zip_ok (fun c => (some (A c), C c)) _ (fun c => (some (A c + ((F c).map q).sum / (X.nrows : K)),
      confPlus e.classification e.nnet.outputs (C c) (F c))) cands ?_]
    · simp only
      rw [ih (fun b hb => hbs b (List.mem_cons_of_mem _ hb)) _ _ (fun c => (confPlus_shape (h0 c) (h1 c) (h2 c) _).1)
        (fun c => (confPlus_shape (h0 c) (h1 c) (h2 c) _).2.1) (fun c => (confPlus_shape (h0 c) (h1 c) (h2 c) _).2.2)]
      congr 1
      apply List.map_congr_left
      intro c _
      rw [confPlus_append, List.flatMap_cons, List.map_append, List.sum_append, hF]
      congr 2
      rw [add_div, add_assoc]
    · intro c hcm
      have l1 := pySlice_length T.rows k0 k1.le k2
      have l2 := pySlice_length X.rows k0 k1.le (by rw [← hN] at k2; exact k2)
      have hz : (T.slice b.1 b.2).rows.zip (((⟨width e.nnet.neurons, (pySlice X.rows b.1 b.2).map g⟩ : Mat K).lead
          (Mat.nrows ⟨width e.nnet.neurons, (pySlice X.rows b.1 b.2).map g⟩) c.1).mul c.2).rows = F c := by
        rw [hF]
        simp only [lead_mul_rows]
        rw [← pySlice_map, ← pySlice_zip]
        · rfl
        · rw [List.length_map]
          exact hN.symm
      have hTb : (T.slice b.1 b.2).nrows = (pySlice T.rows b.1 b.2).length := rfl
      have hfit : Fits e (T.slice b.1 b.2) (((⟨width e.nnet.neurons, (pySlice X.rows b.1 b.2).map g⟩ : Mat K).lead
          (Mat.nrows ⟨width e.nnet.neurons, (pySlice X.rows b.1 b.2).map g⟩) c.1).mul c.2) :=
        { wfT := fun r hr => hT r (mem_pySlice hr)
          wfY := Mat.mul_WF _ _
          rows := by
            rw [lead_mul_rows]
            simp only [Mat.slice, Mat.nrows, List.length_map]
            omega
          colsT := hTc
          colsY := hc c hcm
          pos := hpos }
      rw [vcUpdate_eq hb hcls hfit (by omega) hq (A c) (h1 c) (h2 c), hz]
      congr 4
      have e1 : ((b.2 - b.1 : Int) : K) = ((T.slice b.1 b.2).nrows : K) := by
        rw [hTb, ← l1]
        push_cast
        rfl
      have e2 : ((T.slice b.1 b.2).nrows : K) ≠ 0 := by
        have : (T.slice b.1 b.2).nrows ≠ 0 := by omega
        exact_mod_cast this
      rw [e1]
      field_simp

end Hpelm
