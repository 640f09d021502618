import Verif.Lemmas.HRange
import Verif.Lemmas.Unweighted
import Verif.Lemmas.DataArgs

/-! Correlation matrices kept in files. -/

set_option linter.unusedSectionVars false

namespace Hpelm
open Spec Finset
variable {K : Type} [Field K] [LinearOrder K]

/-- The weight of a target row. -/
def rowWt (cls : Option String) (wc : Option (List (Option K))) (c : Nat) (t : List K) : K :=
  if cls = some "wc" then wtOf wc c t else 1

/-- Output `i` of the hidden layer for one sample. -/
def hid (env : Env K) (gs : List (Group K)) (x : List K) (i : Nat) : K := (rowOut env gs x).getD i 0

/-- `HH`, `HT` are the regularised correlation matrices of the (sample, target) pairs `P`. -/
structure Hold (env : Env K) (gs : List (Group K)) (c : Nat) (lam : K) (wt : List K → K) (P : List (List K × List K)) (HH HT : Mat K) : Prop where
  wfS : HH.WF
  rowsS : HH.nrows = width gs
  colsS : HH.cols = width gs
  wfT : HT.WF
  rowsT : HT.nrows = width gs
  colsT : HT.cols = c
  sumS : ∀ i < width gs, ∀ j < width gs,
    HH.get i j = (if i = j then lam else 0) + (P.map fun q => wt q.2 * hid env gs q.1 i * hid env gs q.1 j).sum
  sumT : ∀ i < width gs, ∀ j < c, HT.get i j = (P.map fun q => wt q.2 * hid env gs q.1 i * q.2.getD j 0).sum

theorem Hold.perm {env : Env K} {gs c lam wt P Q HH HT} (h : Hold env gs c lam wt P HH HT) (hp : P.Perm Q) : Hold env gs c lam wt Q HH HT :=
  { h with
    sumS := fun i hi j hj => by rw [h.sumS i hi j hj]; congr 1; exact (hp.map _).sum_eq
    sumT := fun i hi j hj => by rw [h.sumT i hi j hj]; exact (hp.map _).sum_eq }

theorem Hold.det {env : Env K} {gs c lam wt P HH HT HH' HT'} (h : Hold env gs c lam wt P HH HT) (h' : Hold env gs c lam wt P HH' HT') :
    HH = HH' ∧ HT = HT' := by
  constructor
  · apply Mat.ext_get h.wfS h'.wfS (by rw [h.rowsS, h'.rowsS]) (by rw [h.colsS, h'.colsS])
    intro i j hi hj
    rw [h.rowsS] at hi
    rw [h.colsS] at hj
    rw [h.sumS i hi j hj, h'.sumS i hi j hj]
  · apply Mat.ext_get h.wfT h'.wfT (by rw [h.rowsT, h'.rowsT]) (by rw [h.colsT, h'.colsT])
    intro i j hi hj
    rw [h.rowsT] at hi
    rw [h.colsT] at hj
    rw [h.sumT i hi j hj, h'.sumT i hi j hj]

/-- The matrices of no data. -/
theorem Hold.empty (env : Env K) (gs : List (Group K)) (c : Nat) (lam : K) (wt : List K → K) :
    Hold env gs c lam wt [] (Mat.diag (width gs) lam) (Mat.zeros (width gs) c) where
  wfS := Mat.diag_WF _ _
  rowsS := by simp
  colsS := by simp
  wfT := Mat.zeros_WF _ _
  rowsT := by simp
  colsT := by simp
  sumS := by intro i hi j hj; rw [Mat.get_diag hi hj]; simp
  sumT := by intro i hi j hj; rw [Mat.get_zeros]; simp

theorem get_subDiag {M : Mat K} {v : K} {i j : Nat} (hi : i < M.nrows) (hj : j < M.cols) :
    (subDiag M v).get i j = M.get i j - if i = j then v else 0 := by
  unfold subDiag
  rw [Mat.get_ofFn_lt hi hj]
  by_cases h : i = j
  · rw [if_pos h, if_pos h]
  · rw [if_neg h, if_neg h, sub_zero]

/-- Adding the contribution of more data, without its regulariser. -/
theorem Hold.add {env : Env K} {gs c lam wt P Q HH HT S HT'} (h : Hold env gs c lam wt P HH HT) (h' : Hold env gs c lam wt Q S HT') :
    Hold env gs c lam wt (P ++ Q) (HH.add (subDiag S lam)) (HT.add HT') where
  wfS := Mat.add_WF _ _
  rowsS := by simp [h.rowsS]
  colsS := by simp [h.colsS]
  wfT := Mat.add_WF _ _
  rowsT := by simp [h.rowsT]
  colsT := by simp [h.colsT]
  sumS := by
    intro i hi j hj
    rw [Mat.get_add (by rw [h.rowsS]; exact hi) (by rw [h.colsS]; exact hj), get_subDiag (by rw [h'.rowsS]; exact hi) (by rw [h'.colsS]; exact hj),
      h.sumS i hi j hj, h'.sumS i hi j hj, List.map_append, List.sum_append]
    ring
  sumT := by
    intro i hi j hj
    rw [Mat.get_add (by rw [h.rowsT]; exact hi) (by rw [h.colsT]; exact hj), h.sumT i hi j hj, h'.sumT i hi j hj, List.map_append, List.sum_append]

theorem sampleWeights_rowWt {cls : Option String} {wc : Option (List (Option K))} {T : Mat K} {w : Nat → K} (h : SampleWeights cls wc T w)
    {s : Nat} (hs : s < T.nrows) : w s = rowWt cls wc T.cols (T.rows.getD s []) := by
  obtain ⟨h1, h2⟩ := h s hs
  unfold rowWt
  by_cases hc : cls = some "wc"
  · rw [if_pos hc]
    obtain ⟨l, k, rfl, hk, hl⟩ := h2 hc
    unfold wtOf
    rw [classOf_isClass hk]
    simp only [Option.getD_some]
    rw [hl]
    rfl
  · rw [if_neg hc]
    exact h1 hc

/-- From sums over sample numbers to sums over pairs. -/
theorem hold_of_sums {env : Env K} {n : NNet K} {X T H S HT : Mat K} {cls wc} {w : Nat → K} {lam : K} (hp : n.project env X = .ok H)
    (hN : X.nrows = T.nrows) (hw : SampleWeights cls wc T w) (hS : S.WF) (s1 : S.nrows = H.cols) (s2 : S.cols = H.cols) (hT : HT.WF)
    (t1 : HT.nrows = H.cols) (t2 : HT.cols = T.cols)
    (sumS : ∀ i < H.cols, ∀ j < H.cols, S.get i j = (if i = j then lam else 0) + ∑ s ∈ range T.nrows, w s * H.get s i * H.get s j)
    (sumT : ∀ i < H.cols, ∀ j < T.cols, HT.get i j = ∑ s ∈ range T.nrows, w s * H.get s i * T.get s j) :
    Hold env n.neurons T.cols lam (rowWt cls wc T.cols) (X.rows.zip T.rows) S HT := by
  obtain ⟨_, _, _, rfl⟩ := (project_ok_iff _ _ _ _).1 hp
  have hN' : X.rows.length = T.rows.length := hN
  have hget : ∀ s < T.nrows, ∀ i, (⟨width n.neurons, X.rows.map (rowOut env n.neurons)⟩ : Mat K).get s i = hid env n.neurons (X.rows.getD s []) i := by
    intro s hs i
    have hs' : s < X.rows.length := by rw [hN']; exact hs
    simp [Mat.get, hid, List.getD_eq_getElem?_getD, hs']
  refine ⟨hS, s1, s2, hT, t1, t2, ?_, ?_⟩
  · intro i hi j hj
    rw [sumS i hi j hj]
    congr 1
    rw [sum_zip_list X.rows T.rows hN' fun x t => rowWt cls wc T.cols t * hid env n.neurons x i * hid env n.neurons x j, hN']
    apply Finset.sum_congr rfl
    intro s hs
    have hs := Finset.mem_range.1 hs
    rw [hget s hs, hget s hs, sampleWeights_rowWt hw hs]
  · intro i hi j hj
    rw [sumT i hi j hj]
    rw [sum_zip_list X.rows T.rows hN' fun x t => rowWt cls wc T.cols t * hid env n.neurons x i * t.getD j 0, hN']
    apply Finset.sum_congr rfl
    intro s hs
    have hs := Finset.mem_range.1 hs
    rw [hget s hs, sampleWeights_rowWt hw hs]
    rfl

/-- `add_data` with files: prepare the files, feed a fresh accumulator, store. -/
theorem hAddData_split {env : Env K} {fs : Files K} {e : ELM K} {fX fT : DataArg K} {X T : Mat K} {s : Int} {ic : Option Int} {f g : String}
    {r : ELM K × Files K} (hc : checkBoth fs e.nnet fX fT = .ok (X, T))
    (h : e.hAddData env fs fX fT s ic (some f) (some g) = .ok r) :
    ∃ fs1 e2, e.nnet.neurons ≠ [] ∧ prepareFHH fs (some f) (some g) e.nnet = .ok (e.nnet.reset, fs1) ∧
      ({ e with nnet := e.nnet.reset } : ELM K).hAddData env fs1 (.mat X) (.mat T) s ic none none = .ok (e2, fs1) ∧
      e2.storeCorr fs1 (some f) (some g) = .ok r := by
  obtain ⟨hXc, hTc, hN⟩ := checkBoth_ok hc
  unfold ELM.hAddData at h
  obtain ⟨_, h0, h⟩ := bind_ok h
  obtain ⟨p, h1, h⟩ := bind_ok h
  have : p = (X, T) := by
    have := h1.symm.trans hc
    injection this
  subst this
  obtain ⟨q, h2, h⟩ := bind_ok h
  obtain ⟨n, fs1⟩ := q
  simp only at h
  obtain ⟨bs, h3, h⟩ := bind_ok h
  obtain ⟨e2, h4, h9⟩ := bind_ok h
  have hn : n = e.nnet.reset := by
    unfold prepareFHH at h2
    obtain ⟨a, _, h2⟩ := bind_ok h2
    obtain ⟨b, _, h2⟩ := bind_ok h2
    simp only [pure, Except.pure, Except.ok.injEq, Prod.mk.injEq] at h2
    exact h2.1.symm
  subst hn
  have hne : e.nnet.neurons ≠ [] := by
    have := pyAssert_ok h0
    simpa using this
  refine ⟨fs1, e2, hne, h2, ?_, h9⟩
  have hc1 : checkBoth fs1 (e.nnet.reset) (.mat X) (.mat T) = .ok (X, T) := by
    unfold checkBoth checkData checkOne pyAssert
    have e1 : e.nnet.reset.inputs = e.nnet.inputs := rfl
    have e2 : e.nnet.reset.outputs = e.nnet.outputs := rfl
    simp [hXc, hTc, hN, e1, e2, bind, Except.bind, pure, Except.pure]
  have h0' : pyAssert (!(e.nnet.reset).neurons.isEmpty) = .ok () := by
    unfold pyAssert; rw [if_pos]
    have e1 : e.nnet.reset.neurons = e.nnet.neurons := rfl
    rw [e1]
    simpa using hne
  unfold ELM.hAddData
  simp only [h0', hc1, prepareFHH, bind, Except.bind, pure, Except.pure]
  rw [h3]
  simp only
  rw [h4]
  rfl

/-- What `_prepare_fHH` leaves in the files. -/
theorem prepareFile_ok {fs fs' : Files K} {f : String} {r c : Nat} {fresh : Mat K} (h : prepareFile fs f r c fresh = .ok fs') :
    (∀ g, g ≠ f → fs' g = fs g) ∧
    ((∃ h5, fs f = some h5 ∧ fs' f = some h5 ∧ h5.data.nrows = r ∧ h5.data.cols = c) ∨
      (fs f = none ∧ fs' f = some ⟨fresh, none, none⟩ ∧ 0 < r ∧ 0 < c)) := by
  unfold prepareFile at h
  cases hf : fs f with
  | some h5 =>
    rw [hf] at h
    obtain ⟨_, h1, h⟩ := bind_ok h
    have := pyAssert_ok h1
    simp only [decide_eq_true_eq] at this
    injection h with h
    subst h
    exact ⟨fun _ _ => rfl, Or.inl ⟨h5, rfl, hf, this.1, this.2⟩⟩
  | none =>
    rw [hf] at h
    simp only at h
    split at h
    · cases h
    · rename_i hrc
      injection h with h
      subst h
      refine ⟨fun g hg => by simp [hg], Or.inr ⟨rfl, by simp, by omega, by omega⟩⟩

theorem addToFile_ok {fs fs' : Files K} {f : String} {M : Mat K} (h : addToFile fs f M = .ok fs') :
    ∃ h5, fs f = some h5 ∧ fs' = fun g => if g = f then some { h5 with data := h5.data.add M } else fs g := by
  unfold addToFile at h
  cases hf : fs f with
  | none => rw [hf] at h; cases h
  | some h5 =>
    rw [hf] at h
    simp only at h
    split at h
    · injection h with h
      exact ⟨h5, rfl, h.symm⟩
    · cases h

/-- The two files hold nothing yet, or the matrices of the pairs `P`. -/
def DiskInv (env : Env K) (gs : List (Group K)) (c : Nat) (lam : K) (wt : List K → K) (f g : String) (fs : Files K) (P : List (List K × List K)) : Prop :=
  (fs f = none ∧ fs g = none ∧ P = []) ∨ ∃ h5 h5', fs f = some h5 ∧ fs g = some h5' ∧ 0 < width gs ∧ Hold env gs c lam wt P h5.data h5'.data

section ordered
variable [IsStrictOrderedRing K]

/-- One call of `add_data` with files adds the pairs of its range. -/
theorem hAddData_disk {env : Env K} (hx : env.Exact) {fs : Files K} {e : ELM K}
    (hsq : e.classification = some "wc" → ∀ x : K, 0 ≤ x → env.sqrt x * env.sqrt x = x)
    {fX fT : DataArg K} {X T : Mat K} {s : Nat} {ic : Option Nat} {f g : String} {r : ELM K × Files K} {P : List (List K × List K)}
    (hfg : f ≠ g) (hb : 0 < e.batch) (hTw : T.WF) (hcon : Consistent e.nnet) (hc : checkBoth fs e.nnet fX fT = .ok (X, T))
    (hT : e.classification = some "wc" → OneHot (samplesIn T s ic) ∧ ∃ ws : List K, e.wc = some (ws.map some) ∧ (∀ x ∈ ws, 0 ≤ x) ∧ ws.length = e.nnet.outputs)
    (h : e.hAddData env fs fX fT s (ic.map (↑)) (some f) (some g) = .ok r)
    (hinv : DiskInv env e.nnet.neurons e.nnet.outputs e.nnet.norm (rowWt e.classification e.wc e.nnet.outputs) f g fs P) :
    DiskInv env e.nnet.neurons e.nnet.outputs e.nnet.norm (rowWt e.classification e.wc e.nnet.outputs) f g r.2
      (P ++ (samplesIn X s ic).rows.zip (samplesIn T s ic).rows) ∧ (∀ k, k ≠ f → k ≠ g → r.2 k = fs k) ∧ 0 < (samplesIn X s ic).nrows := by
  obtain ⟨hXc, hTc, hN⟩ := checkBoth_ok hc
  obtain ⟨fs1, e2, hne, h1, h2, h3⟩ := hAddData_split hc h
  obtain ⟨e1, he1⟩ : ∃ e1 : ELM K, e1 = { e with nnet := e.nnet.reset } := ⟨_, rfl⟩
  rw [← he1] at h2
  have hLw : size e.nnet = width e.nnet.neurons := (width_size hcon).symm
  have hc1 : checkBoth fs1 e1.nnet (.mat X) (.mat T) = .ok (X, T) := by
    rw [he1]
    unfold checkBoth checkData checkOne pyAssert
    have e1 : e.nnet.reset.inputs = e.nnet.inputs := rfl
    have e2 : e.nnet.reset.outputs = e.nnet.outputs := rfl
    simp [hXc, hTc, hN, e1, e2, bind, Except.bind, pure, Except.pure]
  have hNs : (samplesIn X s ic).nrows = (samplesIn T s ic).nrows := by
    rw [samplesIn_rowsIn, samplesIn_rowsIn]
    exact rowsIn_length_congr hN _ _
  have hTsc : (samplesIn T s ic).cols = e.nnet.outputs := by rw [samplesIn_cols, hTc]
  have hauto : ∀ ns, e1.autoWc env ns = e1 := by
    intro ns
    unfold ELM.autoWc
    rw [if_neg]
    rintro ⟨a, b⟩
    rw [he1] at a b
    obtain ⟨ws, hws, _⟩ := (hT a).2
    simp only at b
    rw [hws] at b
    cases b
  -- the range is not empty
  have hpos : 0 < (samplesIn X s ic).nrows := by
    by_contra h0
    obtain ⟨bs, b1, b2, b3, b4⟩ := range_batches (batch := e1.batch) (by rw [he1]; exact hb) X.nrows s ic
    have hlen := rowsIn_length X.rows s ic
    rw [samplesIn_rowsIn] at h0
    have h0 : (rowsIn X.rows s ic).length = 0 := by simpa using h0
    have e0 : X.rows.length = X.nrows := rfl
    have hbs : bs = [] := by
      have := hBatches_empty (batch := e1.batch) (istart := (s : Int)) (icount := rangeCount X.nrows s (ic.map (↑))) (by rw [he1]; exact hb) (by rw [e0] at hlen; omega)
      rw [this] at b1
      injection b1 with b1
      exact b1.symm
    have hfd := hAddData_feed (env := env) (e := e1) s ic (by rw [he1]; exact hne) hc1 (by rw [he1]; exact hTc) b1 (b2 _ _ hN.symm)
    rw [h2, hbs] at hfd
    simp only [cutBatches, List.map_nil, ELM.feed, Except.map, hauto] at hfd
    injection hfd with hfd
    injection hfd with hfd _
    rw [hfd] at h3
    unfold ELM.storeCorr NNet.getCorr! NNet.getCorr at h3
    have hcn : e1.nnet.corr = none := by rw [he1]; rfl
    rw [hcn] at h3
    cases hs : e1.nnet.solver <;> rw [hs] at h3 <;> simp [bind, Except.bind] at h3
  have hhot : e1.classification = some "wc" → OneHot (samplesIn T s ic) := by rw [he1]; exact fun h => (hT h).1
  have hw1 : e1.classification = some "wc" → ∃ ws : List K, e1.wc = some (ws.map some) ∧ (∀ x ∈ ws, 0 ≤ x) ∧ ws.length = (samplesIn T s ic).cols := by
    rw [he1, hTsc]; exact fun h => (hT h).2
  have hok : AutoOk env e1 (samplesIn T s ic) := by
    refine ⟨fun h => oneHot_oneEach (hhot h), ?_⟩
    rw [hauto]
    intro hcls
    obtain ⟨ws, hws, _, hl⟩ := hw1 hcls
    rw [hws]
    exact explicit_WOk hhot hl hcls
  rw [hAddData_eq s ic (by rw [he1]; exact hb) (by rw [he1]; exact hne) hc1 hpos hok] at h2
  cases ha : e1.addData env (samplesIn X s ic) (samplesIn T s ic) with
  | error x => rw [ha] at h2; cases h2
  | ok e3 =>
    rw [ha] at h2
    injection h2 with h2
    injection h2 with h2 _
    subst h2
    have hTsw : (samplesIn T s ic).WF := samplesIn_WF hTw s ic
    have hmain : ∃ S HT, SymM S ∧ e3.nnet = { e1.nnet with corr := some (e1.nnet.store S, HT) } ∧
        Hold env e.nnet.neurons e.nnet.outputs e.nnet.norm (rowWt e.classification e.wc e.nnet.outputs) ((samplesIn X s ic).rows.zip (samplesIn T s ic).rows) S HT := by
      have key : ∀ (ee : ELM K), ee.nnet = e1.nnet → ee.classification = e1.classification → ee.batch = e1.batch → (∀ ns, ee.autoWc env ns = ee) →
          (ee.classification = some "wc" → ee.wc = e1.wc) →
          (ee.wc = none ∨ ∃ ws : List K, ee.wc = some (ws.map some) ∧ (∀ x ∈ ws, 0 ≤ x) ∧ ws.length = (samplesIn T s ic).cols) →
          ∀ ee', ee.addData env (samplesIn X s ic) (samplesIn T s ic) = .ok ee' →
          ∃ S HT, SymM S ∧ ee'.nnet = { e1.nnet with corr := some (e1.nnet.store S, HT) } ∧
            Hold env e.nnet.neurons e.nnet.outputs e.nnet.norm (rowWt e.classification e.wc e.nnet.outputs) ((samplesIn X s ic).rows.zip (samplesIn T s ic).rows) S HT := by
        intro ee k1 k2 k3 k4 k5 k6 ee' hee
        obtain ⟨H, S, HT, w, p0, p1, p2, p3, p4, p5, p6, p7, p8, p9, p10, p11, p12, p13, p14⟩ :=
          addData_fresh hx (by rw [k2, he1]; exact hsq) (by rw [k3, he1]; exact hb) hNs hTsw (by rw [k1, he1]; rfl) (by rw [k2]; exact hhot) k6 hee
        rw [k4] at p5
        refine ⟨S, HT, p6, by rw [p5, k1], ?_⟩
        have hcls : ee'.classification = e.classification := by rw [p5]; show ee.classification = _; rw [k2, he1]
        have hww : e.classification = some "wc" → ee'.wc = e.wc := by
          intro hcc
          rw [p5]
          show ee.wc = _
          rw [k5 (by rw [k2, he1]; exact hcc), he1]
        have hh := hold_of_sums p1 hNs p11 p6.wf p7 (by rw [← p6.square]; exact p7) p8 p9 p10 p13 p14
        have e1 : ee.nnet.neurons = e.nnet.neurons := by rw [k1, he1]; rfl
        have e2 : ee.nnet.norm = e.nnet.norm := by rw [k1, he1]; rfl
        rw [e1, e2, hTsc] at hh
        have e3 : rowWt ee'.classification ee'.wc e.nnet.outputs = rowWt e.classification e.wc e.nnet.outputs := by
          funext t
          unfold rowWt
          rw [hcls]
          by_cases hcc : e.classification = some "wc"
          · rw [if_pos hcc, if_pos hcc, hww hcc]
          · rw [if_neg hcc, if_neg hcc]
        rw [e3] at hh
        exact hh
      by_cases hcc : e1.classification = some "wc"
      · exact key e1 rfl rfl rfl hauto (fun _ => rfl) (Or.inr (hw1 hcc)) e3 ha
      · -- class weights are not used: forget them
        have hfree : ∀ (bs) (ea eb : ELM K), ea.classification ≠ some "wc" → eb.classification ≠ some "wc" → ea.nnet = eb.nnet → ∀ ic oc,
            (ea.feed env ic oc bs).map (·.nnet) = (eb.feed env ic oc bs).map (·.nnet) := by
          intro bs
          induction bs with
          | nil => intro ea eb _ _ hn _ _; simp [ELM.feed, Except.map, hn]
          | cons b bs ih =>
            intro ea eb c1 c2 hn ic oc
            obtain ⟨Xb, Tb⟩ := b
            unfold ELM.feed batchWeights
            simp only [if_neg c1, if_neg c2, bind, Except.bind, pure, Except.pure, hn]
            cases eb.nnet.addBatch env ⟨ic, Xb⟩ ⟨oc, Tb⟩ none with
            | error x => rfl
            | ok n => exact ih { ea with nnet := n } { eb with nnet := n } c1 c2 rfl ic oc
        obtain ⟨ee, hee⟩ : ∃ ee : ELM K, ee = { e1 with wc := none } := ⟨_, rfl⟩
        have hau : ∀ ns, ee.autoWc env ns = ee := by
          intro ns
          unfold ELM.autoWc
          rw [if_neg]
          rintro ⟨a, _⟩
          rw [hee] at a
          exact hcc a
        have hadd : (e1.addData env (samplesIn X s ic) (samplesIn T s ic)).map (·.nnet) = (ee.addData env (samplesIn X s ic) (samplesIn T s ic)).map (·.nnet) := by
          unfold ELM.addData
          have hbt : ee.batch = e1.batch := by rw [hee]
          rw [hbt]
          split
          · rfl
          · simp only [map_bind, hauto, hau]
            congr 1; funext Xs
            congr 1; funext Ts
            exact hfree _ _ _ hcc (by rw [hee]; exact hcc) (by rw [hee]) _ _
        rw [ha] at hadd
        cases ha' : ee.addData env (samplesIn X s ic) (samplesIn T s ic) with
        | error x => rw [ha'] at hadd; cases hadd
        | ok e4 =>
          rw [ha'] at hadd
          injection hadd with hadd
          obtain ⟨S, HT, q1, q2, q3⟩ := key ee (by rw [hee]) (by rw [hee]) (by rw [hee]) hau (fun h => absurd (by rw [hee] at h; exact h) hcc)
            (Or.inl (by rw [hee])) e4 ha'
          exact ⟨S, HT, q1, Eq.trans hadd q2, q3⟩
    obtain ⟨S, HT, m1, m2, m3⟩ := hmain
    have hg : e3.nnet.getCorr! = .ok (S, HT) := getCorr!_store m1 (by rw [m2]; rfl)
    have hnorm : e3.nnet.norm = e.nnet.norm := by rw [m2, he1]; rfl
    unfold ELM.storeCorr at h3
    simp only [hg, bind, Except.bind, hnorm] at h3
    cases hwr : writeFHH fs1 f g (subDiag S e.nnet.norm) HT with
    | error x => rw [hwr] at h3; cases h3
    | ok fs2 =>
      rw [hwr] at h3
      simp only [pure, Except.pure] at h3
      injection h3 with h3
      have hr2 : r.2 = fs2 := by rw [← h3]
      unfold writeFHH at hwr
      obtain ⟨fs3, w1, w2⟩ := bind_ok hwr
      obtain ⟨a, a1, a2⟩ := addToFile_ok w1
      obtain ⟨b, b1, b2⟩ := addToFile_ok w2
      have b1' : fs1 g = some b := by rw [a2] at b1; simpa [hfg.symm] using b1
      unfold prepareFHH at h1
      obtain ⟨fsa, p1, h1⟩ := bind_ok h1
      obtain ⟨fsb, p2, h1⟩ := bind_ok h1
      simp only [pure, Except.pure, Except.ok.injEq, Prod.mk.injEq] at h1
      have hfsb : fsb = fs1 := h1.2
      subst hfsb
      have hLr : e.nnet.reset.L.getD 0 = width e.nnet.neurons := by
        rw [← hLw]; rfl
      rw [hLr] at p1 p2
      obtain ⟨u1, u2⟩ := prepareFile_ok p1
      obtain ⟨v1, v2⟩ := prepareFile_ok p2
      have hrf : r.2 f = some { a with data := a.data.add (subDiag S e.nnet.norm) } := by
        rw [hr2, b2, a2]; simp [hfg]
      have hrg : r.2 g = some { b with data := b.data.add HT } := by
        rw [hr2, b2]; simp
      have hfa : fsa f = some a := by rw [← v1 f hfg]; exact a1
      have hgb : fsa g = fs g := u1 g hfg.symm
      refine ⟨Or.inr ⟨_, _, hrf, hrg, ?_⟩, ?_, hpos⟩
      · rcases hinv with ⟨i1, i2, rfl⟩ | ⟨h5, h5', i1, i2, i3, i4⟩
        · rcases u2 with ⟨c1, d1, _⟩ | ⟨_, d1, d2, _⟩
          · rw [i1] at d1; cases d1
          · rcases v2 with ⟨c1, d3, _⟩ | ⟨_, d3, d4, _⟩
            · rw [hgb, i2] at d3; cases d3
            · rw [hfa] at d1
              injection d1 with d1
              rw [b1'] at d3
              injection d3 with d3
              rw [d1, d3]
              exact ⟨d2, (Hold.empty env e.nnet.neurons e.nnet.outputs e.nnet.norm _).add m3⟩
        · rcases u2 with ⟨c1, d1, d1', _⟩ | ⟨d1, _⟩
          · rcases v2 with ⟨c2, d3, d3', _⟩ | ⟨d3, _⟩
            · rw [i1] at d1
              injection d1 with d1
              rw [hfa] at d1'
              injection d1' with d1'
              rw [hgb, i2] at d3
              injection d3 with d3
              rw [b1'] at d3'
              injection d3' with d3'
              subst d1' d3' d1 d3
              exact ⟨i3, i4.add m3⟩
            · rw [hgb, i2] at d3; cases d3
          · rw [i1] at d1; cases d1
      · intro k k1 k2
        rw [hr2, b2, a2]
        simp only [k1, k2, if_false]
        rw [v1 k k2, u1 k k1]

end ordered
end Hpelm
