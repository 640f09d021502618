import Verif.Lemmas.NoFuel
import Verif.Lemmas.Errors
import Verif.Lemmas.Core

/-!
# Structure selection: what a successful call did; errors are not negative
-/

set_option linter.unusedSectionVars false

namespace Hpelm
variable {K : Type} [Field K] [LinearOrder K]

/-! ### The search looks only at scores in its range -/

theorem evalPoints_congr {s1 s2 : Nat → Except PyErr K} {lo hi : Int} (hlo : 0 ≤ lo)
    (hs : ∀ n : Nat, lo ≤ n → (n : Int) ≤ hi → s1 n = s2 n) (ps : List Int) (e : List K) (hps : ∀ p ∈ ps, lo ≤ p ∧ p ≤ hi) :
    evalPoints s1 ps e = evalPoints s2 ps e := by
  induction ps generalizing e with
  | nil => rfl
  | cons p ps ih =>
    unfold evalPoints
    have hp := hps p List.mem_cons_self
    rw [hs p.toNat (by omega) (by omega)]
    simp only [ih _ (fun q hq => hps q (List.mem_cons_of_mem _ hq))]

theorem myoptStep_congr {s1 s2 : Nat → Except PyErr K} {lo hi : Int} (hlo : 0 ≤ lo)
    (hs : ∀ n : Nat, lo ≤ n → (n : Int) ≤ hi → s1 n = s2 n) (v : Iv) (e : List K) (hv : v.In lo hi) :
    myoptStep s1 v e = myoptStep s2 v e := by
  unfold myoptStep
  rw [evalPoints_congr hlo hs v.points e hv]

theorem myoptLoop_congr {s1 s2 : Nat → Except PyErr K} {lo hi : Int} (hlo : 0 ≤ lo)
    (hs : ∀ n : Nat, lo ≤ n → (n : Int) ≤ hi → s1 n = s2 n) (fuel : Nat) (v : Iv) (e : List K) (hv : v.In lo hi) (hh : hi < e.length) :
    myoptLoop s1 fuel v e = myoptLoop s2 fuel v e := by
  induction fuel generalizing v e with
  | zero => rfl
  | succ fuel ih =>
    unfold myoptLoop
    rw [myoptStep_congr hlo hs v e hv]
    rcases myoptStep_cases s2 lo hi hlo v e hv hh with ⟨n, x, _, _, _, h⟩ | ⟨v', e', m, h, hE, hc, _⟩
    · rw [h]; rfl
    · rw [h]
      simp only [bind, Except.bind]
      have hin := (Iv.in_iff v lo hi).1 hv
      have hin' : v'.In lo hi := by
        rcases hc with rfl | rfl | rfl
        · exact redo_in hin.1 hin.2.1 hin.2.2.1
        · exact redo_in hin.2.2.1 hin.2.2.2.1 hin.2.2.2.2
        · exact redo_in hin.2.1 hin.2.2.1 hin.2.2.2.1
      rw [ih v' e' hin' (by rw [hE.len]; exact hh)]

theorem myopt_congr {s1 s2 : Nat → Except PyErr K} {lo hi : Int} (hlo : 0 ≤ lo) (hle : lo ≤ hi)
    (hs : ∀ n : Nat, lo ≤ n → (n : Int) ≤ hi → s1 n = s2 n) (e : List K) (hh : hi < e.length) :
    myopt lo hi e s1 = myopt lo hi e s2 := by
  unfold myopt
  rw [myoptLoop_congr hlo hs _ _ e (init_in hle) hh]

/-- An empty range: the first evaluation is out of the array. -/
theorem myopt_small {lo L0 : Nat} (h : L0 < lo) (L : Nat) (v : K) (score : Nat → Except PyErr K) :
    myopt lo L (errArray L0 L v) score = .error .indexError := by
  have : errAt (errArray L0 L v) (lo : Int) = .error .indexError := by
    unfold errAt
    rw [if_neg (by omega), List.getElem?_eq_none (by rw [errArray_length, Int.toNat_natCast]; omega)]
  unfold myopt myoptLoop myoptStep
  simp only [Iv.points, Iv.init]
  unfold evalPoints
  rw [this]
  rfl

/-! ### Errors are not negative -/

section
variable [IsStrictOrderedRing K]

theorem mean_nonneg {l : List K} (h : ∀ x ∈ l, 0 ≤ x) {v : K} (hv : mean? l = some v) : 0 ≤ v := by
  unfold mean? at hv
  split at hv
  · cases hv
  · injection hv with hv
    rw [← hv]
    exact div_nonneg (List.sum_nonneg h) (Nat.cast_nonneg _)

theorem mean_getD_nonneg {l : List K} (h : ∀ x ∈ l, 0 ≤ x) : 0 ≤ (mean? l).getD 0 := by
  cases hm : mean? l with
  | none => exact le_refl _
  | some v => exact mean_nonneg h hm

theorem b2k_nonneg (b : Bool) : (0 : K) ≤ b2k b := by
  unfold b2k; split
  · exact zero_le_one
  · exact le_refl _

theorem map_b2k_nonneg (l : List Bool) : ∀ x ∈ l.map (b2k (K := K)), 0 ≤ x := by
  intro x hx
  obtain ⟨b, _, rfl⟩ := List.mem_map.1 hx
  exact b2k_nonneg b

theorem notNan_ok {r : Option K} {v : K} (h : notNan r = .ok v) : r = some v := by
  unfold notNan at h
  split at h
  · cases h
  · injection h with h; rw [h]

/-- No class weight is negative. -/
def NonnegW (cls : Option String) (wc : Option (List (Option K))) : Prop :=
  cls = some "wc" → ∀ l, wc = some l → ∀ w, some w ∈ l → 0 ≤ w

theorem mapM_id_mem {l : List (Option K)} {ws : List K} (h : l.mapM id = some ws) : ∀ w ∈ ws, some w ∈ l := by
  induction l generalizing ws with
  | nil => injection h with h; subst h; simp
  | cons a l ih =>
    rw [List.mapM_cons] at h
    cases a with
    | none => cases h
    | some a =>
      cases hl : l.mapM id with
      | none => rw [hl] at h; cases h
      | some us =>
        rw [hl] at h
        injection h with h
        subst h
        intro w hw
        rcases List.mem_cons.1 hw with rfl | hw
        · exact List.mem_cons_self
        · exact List.mem_cons_of_mem _ (ih hl w hw)

theorem zipWith_nonneg {a b : List K} (ha : ∀ x ∈ a, 0 ≤ x) (hb : ∀ x ∈ b, 0 ≤ x) : ∀ x ∈ List.zipWith (· * ·) a b, 0 ≤ x := by
  intro x hx
  rw [← List.map_uncurry_zip_eq_zipWith] at hx
  obtain ⟨p, hp, rfl⟩ := List.mem_map.1 hx
  obtain ⟨h1, h2⟩ := List.of_mem_zip hp
  exact mul_nonneg (ha _ h1) (hb _ h2)

theorem elmError_nonneg {cls : Option String} {wc : Option (List (Option K))} {T Y : Mat K} {v : K} (hw : NonnegW cls wc)
    (h : elmError cls wc T Y = .ok v) : 0 ≤ v := by
  unfold elmError at h
  split at h
  · cases h
  split at h
  · exact mean_nonneg (map_b2k_nonneg _) (notNan_ok h)
  split at h
  · rename_i hc
    simp only at h
    split at h
    · cases h
    · rename_i l
      obtain ⟨r, h1, h2⟩ := bind_ok h
      have h2 := notNan_ok h2
      subst h2
      unfold weightedMean at h1
      split at h1
      · cases h1
      · rename_i ws hws
        split at h1
        · cases h1
        · injection h1 with h1
          injection h1 with h1
          rw [← h1]
          have hn : ∀ w ∈ ws, 0 ≤ w := fun w hw' => hw hc l rfl w (mapM_id_mem hws w hw')
          refine div_nonneg (List.sum_nonneg (zipWith_nonneg ?_ hn)) (List.sum_nonneg hn)
          intro x hx
          obtain ⟨i, _, rfl⟩ := List.mem_map.1 hx
          exact mean_getD_nonneg (map_b2k_nonneg _)
  split at h
  · exact mean_nonneg (map_b2k_nonneg _) (notNan_ok h)
  · refine mean_nonneg ?_ (notNan_ok h)
    intro x hx
    obtain ⟨l, hl, hx⟩ := List.mem_flatten.1 hx
    unfold sqErrs at hl
    rw [← List.map_uncurry_zip_eq_zipWith] at hl
    obtain ⟨p, _, rfl⟩ := List.mem_map.1 hl
    rw [Function.uncurry, ← List.map_uncurry_zip_eq_zipWith] at hx
    obtain ⟨q, _, rfl⟩ := List.mem_map.1 hx
    exact mul_self_nonneg _

theorem sqDiv_nonneg {l R v : List K} (h : sqDiv l R = .ok v) : ∀ x ∈ v, 0 ≤ x := by
  unfold sqDiv at h
  split at h
  · cases h
  · injection h with h
    rw [← h]
    intro x hx
    rw [← List.map_uncurry_zip_eq_zipWith] at hx
    obtain ⟨q, _, rfl⟩ := List.mem_map.1 hx
    exact mul_self_nonneg _

theorem mapM_ok_all {α β : Type} {f : α → Except PyErr β} {l : List α} {v : List β} (h : l.mapM f = .ok v) :
    ∀ b ∈ v, ∃ a ∈ l, f a = .ok b := by
  induction l generalizing v with
  | nil => injection h with h; subst h; simp
  | cons a l ih =>
    rw [List.mapM_cons] at h
    obtain ⟨b, h1, h⟩ := bind_ok h
    obtain ⟨bs, h2, h⟩ := bind_ok h
    injection h with h
    subst h
    intro c hc
    rcases List.mem_cons.1 hc with rfl | hc
    · exact ⟨a, List.mem_cons_self, h1⟩
    · obtain ⟨a', h3, h4⟩ := ih h2 c hc
      exact ⟨a', List.mem_cons_of_mem _ h3, h4⟩

theorem elmErrorPress_nonneg {cls : Option String} {wc : Option (List (Option K))} {T Y : Mat K} {R : List K} {v : K} (hw : NonnegW cls wc)
    (h : elmErrorPress cls wc T Y R = .ok v) : 0 ≤ v := by
  unfold elmErrorPress at h
  split at h
  · cases h
  split at h
  · obtain ⟨r, h1, h2⟩ := bind_ok h
    exact mean_nonneg (sqDiv_nonneg h1) (notNan_ok h2)
  split at h
  · rename_i hc
    obtain ⟨errc, h1, h⟩ := bind_ok h
    have he : ∀ x ∈ errc, 0 ≤ x := by
      intro x hx
      obtain ⟨i, _, hi⟩ := mapM_ok_all h1 x hx
      obtain ⟨u, hu, hi⟩ := bind_ok hi
      injection hi with hi
      rw [← hi]
      exact mean_getD_nonneg (sqDiv_nonneg hu)
    split at h
    · cases h
    · rename_i l
      split at h
      · cases h
      · rename_i ws hws
        have hn : ∀ w ∈ ws, 0 ≤ w := fun w hw' => hw hc _ rfl w (mapM_id_mem hws w hw')
        exact mean_nonneg (zipWith_nonneg he hn) (notNan_ok h)
  split at h
  · obtain ⟨r, h1, h2⟩ := bind_ok h
    refine mean_nonneg ?_ (notNan_ok h2)
    intro x hx
    obtain ⟨l, hl, hx⟩ := List.mem_flatten.1 hx
    obtain ⟨p, _, hp⟩ := mapM_ok_all h1 l hl
    exact sqDiv_nonneg hp x hx
  · obtain ⟨r, h1, h2⟩ := bind_ok h
    refine mean_nonneg ?_ (notNan_ok h2)
    intro x hx
    obtain ⟨l, hl, hx⟩ := List.mem_flatten.1 hx
    obtain ⟨p, _, hp⟩ := mapM_ok_all h1 l hl
    exact sqDiv_nonneg hp x hx

theorem scoreLOO_nonneg {env : Env K} {e : ELM K} {HH HT H T : Mat K} {v : K} (hw : NonnegW e.classification e.wc)
    (h : scoreLOO env e HH HT H T = .ok v) : 0 ≤ v := by
  unfold scoreLOO at h
  split at h
  · cases h
  · exact elmErrorPress_nonneg hw h

theorem cvMean_nonneg {k : Nat} {f : FoldData K → Except PyErr K} (hf : ∀ d v, f d = .ok v → 0 ≤ v) {ds : List (FoldData K)} {acc v : K}
    (ha : 0 ≤ acc) (h : cvMean k f ds acc = .ok v) : 0 ≤ v := by
  induction ds generalizing acc with
  | nil => injection h with h; rw [← h]; exact ha
  | cons d ds ih =>
    unfold cvMean at h
    obtain ⟨u, hu, h⟩ := bind_ok h
    exact ih (add_nonneg ha (div_nonneg (hf d u hu) (Nat.cast_nonneg _))) h

theorem autoWeights_nonneg {ns : List K} (h : ∀ x ∈ ns, 0 ≤ x) : ∀ w, some w ∈ autoWeights ns → 0 ≤ w := by
  intro w hw
  unfold autoWeights at hw
  obtain ⟨n, hn, hw⟩ := List.mem_map.1 hw
  split at hw
  · cases hw
  · injection hw with hw
    rw [← hw]
    exact div_nonneg (List.sum_nonneg h) (h n hn)

theorem colSums_nonneg {T : Mat K} (h : ∀ r ∈ T.rows, ∀ t ∈ r, 0 ≤ t) : ∀ x ∈ colSums T, 0 ≤ x := by
  intro x hx
  unfold colSums at hx
  obtain ⟨j, _, rfl⟩ := List.mem_map.1 hx
  refine List.sum_nonneg fun y hy => ?_
  obtain ⟨r, hr, rfl⟩ := List.mem_map.1 hy
  rw [List.getD_eq_getElem?_getD]
  cases hg : r[j]? with
  | none => exact le_refl _
  | some t => exact h r hr t (List.mem_of_getElem? hg)

/-- Adding data keeps class weights non-negative (explicit weights unchanged, automatic ones from non-negative targets). -/
theorem addData_nonnegW {env : Env K} (hx : env.Exact) {e e' : ELM K} {X T : Mat K} (h : e.addData env X T = .ok e')
    (hw : NonnegW e.classification e.wc) (ht : e.classification = some "wc" → e.wc = none → ∀ r ∈ T.rows, ∀ t ∈ r, 0 ≤ t) :
    NonnegW e'.classification e'.wc := by
  obtain ⟨c, rfl⟩ := addData_fields h
  simp only
  rw [autoWc_cls]
  unfold ELM.autoWc
  split
  · rename_i hc
    intro _ l hl
    injection hl with hl
    rw [← hl]
    refine autoWeights_nonneg fun x hx' => ?_
    obtain ⟨y, hy, rfl⟩ := List.mem_map.1 hx'
    rw [hx]
    exact colSums_nonneg (ht hc.1 hc.2) y hy
  · exact hw

/-- The search on the array the callers prepare: everything C32 needs. -/
theorem myopt_errArray {lo L0 L : Nat} {v : K} {score : Nat → Except PyErr K} {k : Nat} {errs : List K} (h0 : 0 < lo) (hlo : lo ≤ L) (hL : L ≤ L0)
    (hv : 0 ≤ v) (hs : ∀ n s, score n = .ok s → 0 ≤ s) (h : myopt lo L (errArray L0 L v) score = .ok (k, errs)) :
    lo ≤ k ∧ k ≤ L ∧ errs.length = L0 + 1 ∧ errs.getD L 0 = v ∧ errs.getD k 0 ≠ -1 ∧
    (∀ n ≤ L0, errs.getD n 0 ≠ -1 → errs.getD k 0 ≤ errs.getD n 0) ∧
    (∀ n ≤ L0, n ≠ L → errs.getD n 0 ≠ -1 → lo ≤ n ∧ n < L ∧ score n = .ok (errs.getD n 0)) := by
  have hm1 : ∀ x : K, 0 ≤ x → x ≠ -1 := fun x hx hx' => by
    rw [hx'] at hx
    exact absurd hx (by norm_num)
  have hlen := errArray_length L0 L v
  have hgetL : (errArray L0 L v).getD L 0 = v := by
    unfold errArray
    rw [List.getD_eq_getElem?_getD, List.getElem?_set]
    simp [Nat.lt_succ_of_le hL]
  have hgetn : ∀ n, n ≠ L → n < L0 + 1 → (errArray L0 L v).getD n 0 = -1 := by
    intro n hn hn'
    unfold errArray
    rw [List.getD_eq_getElem?_getD, List.getElem?_set]
    simp [Ne.symm hn, hn']
  rcases myopt_cases score lo L (by omega) (by omega) (errArray L0 L v) (by rw [hlen]; omega) with ⟨n, x, _, _, _, h'⟩ | ⟨k', e', h', h1, h2, hE, hB⟩
  · rw [h'] at h; cases h
  · rw [h'] at h
    injection h with h
    injection h with hk he
    subst hk he
    obtain ⟨b1, b2⟩ := hB (fun n s hs' => hm1 s (hs n s hs')) (by simp only [Int.toNat_natCast]; rw [hgetL]; exact hm1 v hv)
      (fun n hn hn' => hgetn n (by simpa using hn) (by rw [hlen] at hn'; exact hn'))
    refine ⟨by omega, by omega, by rw [hE.len, hlen], ?_, b1, fun n hn hne => b2 n (by rw [hlen]; omega) hne, ?_⟩
    · rw [hE.keep (by rw [hgetL]; exact hm1 v hv), hgetL]
    · intro n hn hnL hne
      rcases hE.val n with a | ⟨_, a, b, c⟩
      · rw [hgetn n hnL (by omega)] at a
        exact absurd a hne
      · exact ⟨by omega, by omega, c⟩

end
end Hpelm
