import Verif.Spec.Concurrent
import Verif.Props.C112_Tutorial
import Verif.Props.C47_C48_Writers

/-!
# C113: the documented parallel workflow with the scripts running at the same time
-/

set_option linter.unusedSectionVars false

namespace Hpelm.Props
open Hpelm Spec Finset
variable {K : Type} [Field K] [LinearOrder K] [IsStrictOrderedRing K]

/-- What one script computes. -/
theorem part_hold {env : Env K} (hx : env.Exact) {f : Names} {model : ELM K} (hc : Consistent model.nnet)
    (hg : GivenWeights model) (hwc : model.classification ≠ some "wc" → model.wc = none)
    (hsq : model.classification = some "wc" → ∀ x : K, 0 ≤ x → env.sqrt x * env.sqrt x = x) (hnn : model.nnet.neurons ≠ [])
    {X T H : Mat K} (hTw : T.WF) (hXc : X.cols = model.nnet.inputs) (hTc : T.cols = model.nnet.outputs) (hN : X.nrows = T.nrows) (hX0 : 0 < X.nrows)
    (hhot : model.classification = some "wc" → OneHot T) (hH : model.nnet.project env X = .ok H) (p : DataPart K)
    (hpl : Plain p.object) (hne : sampleNos X.nrows p.istart p.icount ≠ []) (fs : Files K)
    (hfX : fs f.X = some ⟨X, none, none⟩) (hfT : fs f.T = some ⟨T, none, none⟩) :
    ∃ e e' S HT, p.object.load env model.saved = .ok e ∧
      ({ e with nnet := e.nnet.reset } : ELM K).hAddData env fs (.path f.X) (.path f.T) p.istart (p.icount.map (↑)) none none = .ok (e', fs) ∧
      e'.nnet.getCorr = .ok (some (S, HT)) ∧ e'.nnet.norm = model.nnet.norm ∧
      Hold env model.nnet.neurons model.nnet.outputs model.nnet.norm (Hpelm.rowWt model.classification model.wc model.nnet.outputs)
        ((samplesIn X p.istart p.icount).rows.zip (samplesIn T p.istart p.icount).rows) S HT := by
  obtain ⟨ha, hb⟩ := hpl
  have hld := load_saved (env := env) model p.object hc (fun h => absurd h hnn) ha (storable_exact hx _ _)
  obtain ⟨e, he⟩ : ∃ e, p.object.load env model.saved = .ok e := ⟨_, hld⟩
  obtain ⟨q, qc, q1, q2, q3, q4, q5, q6⟩ := load_none hc (fun h => absurd h hnn) ha (storable_exact hx _ _) he
  have qm := SameContents.sameModel q
  have hTn : 0 < T.nrows := by omega
  have rX : Reads fs (.path f.X) (some X) := .file f.X ⟨X, none, none⟩ hfX hX0
  have rT : Reads fs (.path f.T) (some T) := .file f.T ⟨T, none, none⟩ hfT hTn
  obtain ⟨e1, he1⟩ : ∃ e1 : ELM K, e1 = { e with nnet := e.nnet.reset } := ⟨_, rfl⟩
  have n1 : e1.nnet.neurons = model.nnet.neurons := by rw [he1]; exact qm.neurons
  have n2 : e1.nnet.inputs = model.nnet.inputs := by rw [he1]; exact qm.inputs
  have n3 : e1.nnet.outputs = model.nnet.outputs := by rw [he1]; exact qm.outputs
  have n4 : e1.nnet.norm = model.nnet.norm := by rw [he1]; exact qm.norm
  have n5 : e1.classification = model.classification := by rw [he1]; exact qm.classification
  have n6 : e1.wc = model.wc := by rw [he1]; exact q.wc.symm
  have n7 : 0 < e1.batch := by rw [he1]; show 0 < e.batch; rw [q5]; exact hb
  have n8 : e1.nnet.corr = none := by rw [he1]; rfl
  have n9 : e1.nnet.L = some (width model.nnet.neurons) := by
    have : e1.nnet.L = some (size e.nnet) := by rw [he1]; rfl
    rw [this, ← width_size qc, qm.neurons]
  have hproj : ∃ H', e1.nnet.project env (samplesIn X p.istart p.icount) = .ok H' := by
    obtain ⟨b1, b2, b3, -⟩ := (project_ok_iff _ _ _ _).1 hH
    refine ⟨_, (project_ok_iff _ _ _ _).2 ⟨?_, ?_, ?_, rfl⟩⟩
    · rw [samplesIn_cols, hXc, n2]
    · rw [n1]; exact b2
    · rw [n1]; exact b3
  obtain ⟨H', hH'⟩ := hproj
  have hnp : 0 < (samplesIn X p.istart p.icount).nrows := by
    rw [samplesIn_rowsIn]
    show 0 < (rowsIn X.rows p.istart p.icount).length
    rw [rowsIn_nos [], List.length_map]
    exact List.length_pos_of_ne_nil hne
  have hhot' : e1.classification = some "wc" → OneHot (samplesIn T p.istart p.icount) := fun h => by
    rw [samplesIn_rowsIn]
    exact fun r hr => hhot (by rw [← n5]; exact h) r (mem_rowsIn hr)
  have hNs : (samplesIn X p.istart p.icount).nrows = (samplesIn T p.istart p.icount).nrows := by
    rw [samplesIn_rowsIn, samplesIn_rowsIn]
    exact rowsIn_length_congr hN _ _
  have hTsc : (samplesIn T p.istart p.icount).cols = model.nnet.outputs := by rw [samplesIn_cols, hTc]
  have hgw : e1.wc = none ∨ ∃ ws : List K, e1.wc = some (ws.map some) ∧ (∀ x ∈ ws, 0 ≤ x) ∧ ws.length = (samplesIn T p.istart p.icount).cols := by
    rw [n6, hTsc]
    by_cases hcls : model.classification = some "wc"
    · exact Or.inr (hg hcls)
    · exact Or.inl (hwc hcls)
  have hgw' : e1.wc = none ∨ ∃ ws : List K, e1.wc = some (ws.map some) ∧ ws.length = (samplesIn T p.istart p.icount).cols := by
    rcases hgw with h | ⟨ws, a, _, c⟩
    · exact Or.inl h
    · exact Or.inr ⟨ws, a, c⟩
  have hc1 : checkBoth fs e1.nnet (.path f.X) (.path f.T) = .ok (X, T) := checkBoth_reads rX rT (by rw [n2, hXc]) (by rw [n3, hTc]) hN
  have hHc : H'.cols = width model.nnet.neurons := by
    obtain ⟨_, _, _, rfl⟩ := (project_ok_iff _ _ _ _).1 hH'
    rw [n1]
  obtain ⟨e2, h2⟩ := addData_total (e := e1) hx n7 hNs hnp hH' n8 (by rw [n9, hHc]; rfl) (by rw [n3]; exact hTsc) hhot' hgw'
  obtain ⟨H2, S, HT, w, p0, p1, p2, p3, p4, p5, p6, p7, p8, p9, p10, p11, p12, p13, p14⟩ :=
    addData_fresh hx (by rw [n5]; exact hsq) n7 hNs (samplesIn_WF hTw _ _) n8 hhot' hgw h2
  have hok : AutoOk env e1 (samplesIn T p.istart p.icount) :=
    ⟨fun h => oneHot_oneEach (hhot' h), autoWc_WOk hx hhot' hgw'⟩
  have hadd := hAddData_eq (env := env) p.istart p.icount n7 (by rw [n1]; exact hnn) hc1 hnp hok
  rw [h2] at hadd
  refine ⟨e, e2, S, HT, he, by rw [← he1]; exact hadd, getCorr_store _ p6 (by rw [p5]; rfl), by rw [p5]; exact n4, ?_⟩
  have hh := hold_of_sums p1 hNs p11 p6.wf p7 (by rw [← p6.square]; exact p7) p8 p9 p10 p13 p14
  rw [n1, n4, hTsc] at hh
  have hauto : e1.autoWc env (colSums (samplesIn T p.istart p.icount)) = e1 := by
    unfold ELM.autoWc
    rw [if_neg]
    rintro ⟨a, b⟩
    rw [n5] at a
    obtain ⟨ws, hws, _⟩ := hg a
    rw [n6, hws] at b
    cases b
  rw [hauto] at p5
  have hcw : e2.classification = model.classification ∧ e2.wc = model.wc := by
    rw [p5]
    exact ⟨n5, n6⟩
  rw [hcw.1, hcw.2] at hh
  exact hh

theorem sum_parts {β : Type} (l : List Nat) (hl : l.Nodup) (pairs : Nat → List β) (g : β → K) (F : Nat → K)
    (h : ∀ q ∈ l, F q = ((pairs q).map g).sum) : ∑ q ∈ l.toFinset, F q = ((l.flatMap pairs).map g).sum := by
  rw [List.sum_toFinset _ hl]
  induction l with
  | nil => simp
  | cons a l ih =>
    rw [List.map_cons, List.sum_cons, List.flatMap_cons, List.map_append, List.sum_append, h a List.mem_cons_self,
      ih (List.nodup_cons.1 hl).2 fun q hq => h q (List.mem_cons_of_mem _ hq)]

theorem chosen_all (parts : List (DataPart K)) : chosen parts (List.range parts.length) = parts := by
  unfold chosen
  induction parts with
  | nil => rfl
  | cons a l ih =>
    rw [List.length_cons, List.range_succ_eq_map, List.filterMap_cons_some (b := a) (by simp), List.filterMap_map]
    congr 1

theorem chosen_flatMap {β : Type} (parts : List (DataPart K)) (l : List Nat) (pairs : DataPart K → List β) :
    (chosen parts l).flatMap pairs = l.flatMap fun q => (parts[q]?).elim [] pairs := by
  unfold chosen
  induction l with
  | nil => rfl
  | cons a l ih =>
    cases h : parts[a]? with
    | none => rw [List.filterMap_cons_none h, List.flatMap_cons, ih, h]; rfl
    | some p => rw [List.filterMap_cons_some h, List.flatMap_cons, List.flatMap_cons, ih, h]; rfl

/-- Whatever the interleaving, files that hold the contributions of some scripts hold the matrices of all their samples. -/
theorem scripts_disk_on {env : Env K} {f : Names} {model : ELM K} {parts : List (DataPart K)} {fs fs' : Files K} {c : WCtx K}
    {P : List (List K × List K)} {pairs : DataPart K → List (List K × List K)} {wt : List K → K} {file0 : FId → Option (Nat → K)} {s : WState K}
    (hw0 : 0 < width model.nnet.neurons)
    (hsc : Scripts env f model (width model.nnet.neurons) parts fs c)
    (hpart : ∀ p ∈ parts, ∃ e e' S HT, p.object.load env model.saved = .ok e ∧
      ({ e with nnet := e.nnet.reset } : ELM K).hAddData env fs (.path f.X) (.path f.T) p.istart (p.icount.map (↑)) none none = .ok (e', fs) ∧
      e'.nnet.getCorr = .ok (some (S, HT)) ∧ e'.nnet.norm = model.nnet.norm ∧
      Hold env model.nnet.neurons model.nnet.outputs model.nnet.norm wt (pairs p) S HT)
    (hinv : DiskInv env model.nnet.neurons model.nnet.outputs model.nnet.norm wt f.HH f.HT fs P)
    (hon : OnDisk f (width model.nnet.neurons) model.nnet.outputs fs file0)
    (l : List Nat) (hl : l.Nodup) (hlp : ∀ q ∈ l, q < parts.length) (hh : ∀ g, Holds c file0 s g l.toFinset)
    (hon' : OnDisk f (width model.nnet.neurons) model.nnet.outputs fs' s.file) :
    DiskInv env model.nnet.neurons model.nnet.outputs model.nnet.norm wt f.HH f.HT fs' (P ++ (chosen parts l).flatMap pairs) := by
  rw [chosen_flatMap]
  have hel : ∀ q (hq : q < parts.length), (parts[q]?).elim [] pairs = pairs parts[q] := by
    intro q hq
    rw [List.getElem?_eq_getElem hq]
    rfl
  obtain ⟨L, hL⟩ : ∃ L, L = width model.nnet.neurons := ⟨_, rfl⟩
  obtain ⟨o, ho⟩ : ∃ o, o = model.nnet.outputs := ⟨_, rfl⟩
  -- what the processes add
  have add : ∀ q (hq : q < parts.length),
      (∀ i < L, ∀ j < L, c.contrib q .hh (i * L + j) = ((pairs parts[q]).map fun q => wt q.2 * hid env model.nnet.neurons q.1 i * hid env model.nnet.neurons q.1 j).sum) ∧
      ∀ i < L, ∀ j < o, c.contrib q .ht (i * o + j) = ((pairs parts[q]).map fun q => wt q.2 * hid env model.nnet.neurons q.1 i * q.2.getD j 0).sum := by
    intro q hq
    obtain ⟨e, e', S, HT, a1, a2, a3, a4, a5⟩ := hpart parts[q] (List.getElem_mem hq)
    obtain ⟨d, d', S', HT', b1, b2, b3, b4, b5⟩ := hsc.adds q hq
    obtain rfl : d = e := by rw [a1] at b1; injection b1 with b1; exact b1.symm
    obtain rfl : d' = e' := by rw [a2] at b2; injection b2 with b2; injection b2 with b2 _; exact b2.symm
    obtain ⟨rfl, rfl⟩ : S' = S ∧ HT' = HT := by
      rw [a3] at b3; injection b3 with b3; injection b3 with b3; injection b3 with b3 b3'; exact ⟨b3.symm, b3'.symm⟩
    rw [← hL] at b4 b5
    rw [← ho] at b5
    refine ⟨fun i hi j hj => ?_, fun i hi j hj => ?_⟩
    · rw [b4 i hi j hj, a4, a5.sumS i (by omega) j (by omega)]
      ring
    · rw [b5 i hi j hj, a5.sumT i (by omega) j (by omega)]
  -- what the files hold at the start
  have start : (∀ i < L, ∀ j < L, base c file0 .hh (i * L + j) =
        (if i = j then model.nnet.norm else 0) + (P.map fun q => wt q.2 * hid env model.nnet.neurons q.1 i * hid env model.nnet.neurons q.1 j).sum) ∧
      ∀ i < L, ∀ j < o, base c file0 .ht (i * o + j) = (P.map fun q => wt q.2 * hid env model.nnet.neurons q.1 i * q.2.getD j 0).sum := by
    unfold base
    obtain ⟨o1, o2⟩ := hon
    rw [← hL] at o1 o2
    rw [← ho] at o2
    rcases hinv with ⟨i1, i2, rfl⟩ | ⟨h5, h5', i1, i2, _, i3⟩
    · rw [i1] at o1
      rw [i2] at o2
      cases e1 : file0 .hh with
      | some v => rw [e1] at o1; exact o1.elim
      | none =>
        cases e2 : file0 .ht with
        | some v => rw [e2] at o2; exact o2.elim
        | none =>
          refine ⟨fun i hi j hj => ?_, fun i hi j hj => ?_⟩
          · have := hsc.freshHH i (by omega) j (by omega)
            rw [← hL] at this
            simp [this]
          · simp [hsc.freshHT]
    · rw [i1] at o1
      rw [i2] at o2
      cases e1 : file0 .hh with
      | none => rw [e1] at o1; exact o1.elim
      | some v =>
        cases e2 : file0 .ht with
        | none => rw [e2] at o2; exact o2.elim
        | some v' =>
          rw [e1] at o1
          rw [e2] at o2
          refine ⟨fun i hi j hj => ?_, fun i hi j hj => ?_⟩
          · rw [Option.getD_some, ← o1.2.2.2 i hi j hj, i3.sumS i (by omega) j (by omega)]
          · rw [Option.getD_some, ← o2.2.2.2 i hi j hj, i3.sumT i (by omega) j (by omega)]
  obtain ⟨v, v1, v2⟩ := hh .hh
  obtain ⟨v', v1', v2'⟩ := hh .ht
  obtain ⟨o1, o2⟩ := hon'
  rw [← hL] at o1 o2
  rw [← ho] at o2
  rw [v1] at o1
  rw [v1'] at o2
  cases e1 : fs' f.HH with
  | none => rw [e1] at o1; exact o1.elim
  | some h5 =>
    cases e2 : fs' f.HT with
    | none => rw [e2] at o2; exact o2.elim
    | some h5' =>
      rw [e1] at o1
      rw [e2] at o2
      right
      refine ⟨h5, h5', e1, e2, hw0, ⟨o1.1, by rw [o1.2.1, hL], by rw [o1.2.2.1, hL], o2.1, by rw [o2.2.1, hL], by rw [o2.2.2.1, ho], ?_, ?_⟩⟩
      · intro i hi j hj
        rw [← hL] at hi hj
        have hlt : i * L + j < c.size .hh := by
          rw [hsc.sizeHH, ← hL]
          calc i * L + j < i * L + L := by omega
            _ = (i + 1) * L := by ring
            _ ≤ L * L := Nat.mul_le_mul_right _ hi
        rw [o1.2.2.2 i hi j hj, v2 _ hlt, start.1 i hi j hj,
          sum_parts l hl (fun q => (parts[q]?).elim [] pairs) _ _ fun q hq => by rw [hel q (hlp q hq)]; exact (add q (hlp q hq)).1 i hi j hj, List.map_append, List.sum_append, add_assoc]
      · intro i hi j hj
        rw [← hL] at hi
        rw [← ho] at hj
        have hlt : i * o + j < c.size .ht := by
          rw [hsc.sizeHT, ← hL, ← ho]
          calc i * o + j < i * o + o := by omega
            _ = (i + 1) * o := by ring
            _ ≤ L * o := Nat.mul_le_mul_right _ hi
        rw [o2.2.2.2 i hi j hj, v2' _ hlt, start.2 i hi j hj,
          sum_parts l hl (fun q => (parts[q]?).elim [] pairs) _ _ fun q hq => by rw [hel q (hlp q hq)]; exact (add q (hlp q hq)).2 i hi j hj, List.map_append, List.sum_append]

/-- Whatever the interleaving, the files hold the matrices of all the samples in the end. -/
theorem scripts_disk {env : Env K} {f : Names} {model : ELM K} {parts : List (DataPart K)} {fs fs' : Files K} {c : WCtx K}
    {P : List (List K × List K)} {pairs : DataPart K → List (List K × List K)} {wt : List K → K} {file0 : FId → Option (Nat → K)} {s : WState K}
    (hw0 : 0 < width model.nnet.neurons)
    (hsc : Scripts env f model (width model.nnet.neurons) parts fs c)
    (hpart : ∀ p ∈ parts, ∃ e e' S HT, p.object.load env model.saved = .ok e ∧
      ({ e with nnet := e.nnet.reset } : ELM K).hAddData env fs (.path f.X) (.path f.T) p.istart (p.icount.map (↑)) none none = .ok (e', fs) ∧
      e'.nnet.getCorr = .ok (some (S, HT)) ∧ e'.nnet.norm = model.nnet.norm ∧
      Hold env model.nnet.neurons model.nnet.outputs model.nnet.norm wt (pairs p) S HT)
    (hinv : DiskInv env model.nnet.neurons model.nnet.outputs model.nnet.norm wt f.HH f.HT fs P)
    (hon : OnDisk f (width model.nnet.neurons) model.nnet.outputs fs file0)
    (hh : ∀ g, Holds c file0 s g (range c.n))
    (hon' : OnDisk f (width model.nnet.neurons) model.nnet.outputs fs' s.file) :
    DiskInv env model.nnet.neurons model.nnet.outputs model.nnet.norm wt f.HH f.HT fs' (P ++ parts.flatMap pairs) := by
  have := scripts_disk_on hw0 hsc hpart hinv hon (List.range parts.length) List.nodup_range (fun q hq => List.mem_range.1 hq)
    (by rw [List.toFinset_range, ← hsc.count]; exact hh) hon'
  rwa [chosen_all] at this

/-- The regularisation and the matrices that a script computes. -/
def partMats (env : Env K) (f : Names) (m : Saved K) (p : DataPart K) (fs : Files K) : Except PyErr (K × Mat K × Mat K) := do
  let e ← p.object.load env m
  let (e', _) ← ({ e with nnet := e.nnet.reset } : ELM K).hAddData env fs (.path f.X) (.path f.T) p.istart (p.icount.map (↑)) none none
  match ← e'.nnet.getCorr with
  | some r => pure (e'.nnet.norm, r)
  | none => throw .typeError

/-- The transition system of the scripts. -/
def scriptCtx (env : Env K) (f : Names) (model : ELM K) (L : Nat) (parts : List (DataPart K)) (fs : Files K) : WCtx K where
  n := parts.length
  size := fun g => match g with | .hh => L * L | .ht => L * model.nnet.outputs
  contrib := fun q g k => match (parts[q]?).map fun p => partMats env f model.saved p fs with
    | some (.ok (norm, HH, HT)) => match g with
      | .hh => HH.get (k / L) (k % L) - if k / L = k % L then norm else 0
      | .ht => HT.get (k / model.nnet.outputs) (k % model.nnet.outputs)
    | _ => 0
  fresh := fun g k => match g with
    | .hh => if k / L = k % L then model.nnet.norm else 0
    | .ht => 0

theorem cell_no {n i j : Nat} (hj : j < n) : (i * n + j) / n = i ∧ (i * n + j) % n = j := by
  have hn : 0 < n := by omega
  constructor
  · rw [Nat.add_comm, Nat.add_mul_div_right _ _ hn, Nat.div_eq_of_lt hj, Nat.zero_add]
  · rw [Nat.add_comm, Nat.add_mul_mod_self_right, Nat.mod_eq_of_lt hj]

/-- It is that of the scripts if every script can compute its matrices. -/
theorem scriptCtx_ok {env : Env K} {f : Names} {model : ELM K} {L : Nat} {parts : List (DataPart K)} {fs : Files K}
    (hpart : ∀ p ∈ parts, ∃ r, partMats env f model.saved p fs = .ok r) : Scripts env f model L parts fs (scriptCtx env f model L parts fs) := by
  refine ⟨rfl, rfl, rfl, ?_, fun _ => rfl, ?_⟩
  · intro i hi j hj
    show (if (i * L + j) / L = (i * L + j) % L then _ else _) = _
    rw [(cell_no hj).1, (cell_no hj).2]
  · intro q hq
    obtain ⟨⟨norm, HH, HT⟩, hr⟩ := hpart parts[q] (List.getElem_mem hq)
    have hr0 := hr
    unfold partMats at hr
    obtain ⟨e, a1, hr⟩ := bind_ok hr
    obtain ⟨⟨e', fs'⟩, a2, hr⟩ := bind_ok hr
    obtain ⟨g, a3, hr⟩ := bind_ok hr
    have hfs : fs' = fs := (C108_one_name_refuted _ _ _ _ _ _ _ "").2 _ _ a2
    rw [hfs] at a2
    cases g with
    | none => cases hr
    | some g =>
      simp only [pure, Except.pure, Except.ok.injEq, Prod.mk.injEq] at hr
      obtain ⟨rfl, rfl⟩ := hr
      have hq' : (parts[q]?).map (fun p => partMats env f model.saved p fs) = some (.ok (e'.nnet.norm, HH, HT)) := by
        rw [List.getElem?_eq_getElem hq, Option.map_some, hr0]
      refine ⟨e, e', HH, HT, a1, a2, a3, ?_, ?_⟩
      · intro i hi j hj
        simp only [scriptCtx, hq', (cell_no hj).1, (cell_no hj).2]
      · intro i hi j hj
        simp only [scriptCtx, hq', (cell_no hj).1, (cell_no hj).2]

/-- There is such a transition system for every list of valid scripts. -/
theorem scripts_exist {env : Env K} {f : Names} {model : ELM K} {L : Nat} {parts : List (DataPart K)} {fs : Files K}
    (hpart : ∀ p ∈ parts, ∃ e e' S HT, p.object.load env model.saved = .ok e ∧
      ({ e with nnet := e.nnet.reset } : ELM K).hAddData env fs (.path f.X) (.path f.T) p.istart (p.icount.map (↑)) none none = .ok (e', fs) ∧
      e'.nnet.getCorr = .ok (some (S, HT))) : ∃ c, Scripts env f model L parts fs c := by
  refine ⟨_, scriptCtx_ok fun p hp => ?_⟩
  obtain ⟨e, e', S, HT, a1, a2, a3⟩ := hpart p hp
  refine ⟨(e'.nnet.norm, S, HT), ?_⟩
  unfold partMats
  simp only [a1, a2, a3, bind, Except.bind, pure, Except.pure]

/-- Every execution can be continued until all the processes are done. -/
theorem runs_finish {M : Type} [AddCommMonoid M] (c : WCtx M) (file0 : FId → Option (Nat → M)) (s : WState M) (h : Runs c (WState.init file0) s) :
    ∃ t, Runs c s t ∧ ∀ p < c.n, t.pc p = .done := by
  have hcr : ∀ {s}, Runs c (WState.init file0) s → ∀ p, s.pc p ≠ .crashed := by
    intro s hs
    induction hs with
    | refl => intro p hp; cases hp
    | tail _ hs ih => intro p hp; exact ih p (step_crashed hs hp)
  obtain ⟨n, hn⟩ : ∃ n, n = ∑ p ∈ range c.n, rank c (s.pc p) := ⟨_, rfl⟩
  induction n using Nat.strong_induction_on generalizing s with
  | _ n ih =>
    by_cases hd : ∀ p < c.n, s.pc p = .done
    · exact ⟨s, .refl, hd⟩
    · push Not at hd
      obtain ⟨p, hp, hpd⟩ := hd
      obtain ⟨t, ht⟩ := C47_no_deadlock c file0 s (runs_cruns h) p hp hpd (hcr h p)
      have := rank_step ht
      obtain ⟨u, hu, hud⟩ := ih (∑ p ∈ range c.n, rank c (t.pc p)) (by omega) t (h.tail ht) rfl
      exact ⟨u, .head ht hu, hud⟩

/-- The cells as a file. -/
def fileOf (r c : Nat) (v : Option (Nat → K)) : Option (H5 K) := v.map fun v => ⟨Mat.ofFn r c fun i j => v (i * c + j), none, none⟩

theorem sameCells_fileOf (r c : Nat) (v : Option (Nat → K)) : SameCells r c (fileOf r c v) v := by
  cases v with
  | none => trivial
  | some v =>
    refine ⟨Mat.ofFn_WF _ _ _, by simp, by simp, ?_⟩
    intro i hi j hj
    rw [Mat.get_ofFn_lt hi hj]

theorem cells_exist (r c : Nat) (h : Option (H5 K)) (hw : ∀ d, h = some d → d.data.WF ∧ d.data.nrows = r ∧ d.data.cols = c) :
    ∃ v, SameCells r c h v := by
  cases h with
  | none => exact ⟨none, trivial⟩
  | some d =>
    obtain ⟨a1, a2, a3⟩ := hw d rfl
    refine ⟨some fun k => d.data.get (k / c) (k % c), a1, a2, a3, ?_⟩
    intro i hi j hj
    simp only [(cell_no hj).1, (cell_no hj).2]

/-- C113, with the first script run alone: put the data on the disk, save the model, run one script of step 3 alone to its end; then run any number of
further scripts at the same time, in any interleaving of their reads and writes of the two files.  When they have all ended, the remaining scripts
succeed, and the file of predictions holds exactly the predictions of the model trained in memory on all the data. -/
theorem C113_first_alone (env : Env K) (hl : Lawful env) (hx : env.Exact) (cast : K → K) (hcast : ∀ x, cast x = x) (f : Names) (hd : f.Distinct)
    (lvl : Nat) (hlvl : lvl < 10) (fs : Files K) (h1 : fs f.HH = none) (h2 : fs f.HT = none)
    -- the model
    (model : ELM K) (hc : Consistent model.nnet) (hg : GivenWeights model) (hwc : model.classification ≠ some "wc" → model.wc = none)
    (hsq : model.classification = some "wc" → ∀ x : K, 0 ≤ x → env.sqrt x * env.sqrt x = x) (hnorm : 0 < model.nnet.norm)
    (hin : 0 < model.nnet.inputs) (hout : 0 < model.nnet.outputs) (hpos : 0 < size model.nnet)
    -- the data and the scripts
    (X T : Mat K) (hTw : T.WF) (hhot : model.classification = some "wc" → OneHot T) (first : DataPart K) (parts : List (DataPart K))
    (hparts : ((first :: parts).flatMap fun p => sampleNos X.nrows p.istart p.icount).Perm (List.range X.nrows))
    (hne : ∀ p ∈ first :: parts, sampleNos X.nrows p.istart p.icount ≠ []) (hpl : ∀ p ∈ first :: parts, Plain p.object)
    (o4 o5 : ELM K) (ho4 : Plain o4) (ho5 : Plain o5)
    -- training in memory
    (a a' : ELM K) (gN : a.nnet.neurons = model.nnet.neurons) (gI : a.nnet.inputs = model.nnet.inputs)
    (gO : a.nnet.outputs = model.nnet.outputs) (gn : a.nnet.norm = model.nnet.norm) (rnd : Rnd) (args : List String) (kw : Kwargs K) (r : Option K) (hsel : "V" ∉ args ∧ "CV" ∉ args ∧ "LOO" ∉ args)
    (hb : 0 < kw.batch.getD a.batch) (hw : ∀ ws, kw.w = some ws → ∀ x ∈ ws, 0 ≤ x)
    (htr : a.train env fs rnd (.mat X) (.mat T) args kw = (.ok r, a')) (hcls : a'.classification = model.classification) (hwca : a'.wc = model.wc) :
    ∃ fs1 fs2, step1 cast f X T lvl fs = .ok fs1 ∧ step3 env f model.saved first fs1 = .ok fs2 ∧ (∃ c, Scripts env f model (size model.nnet) parts fs2 c) ∧
      (∃ file0, OnDisk f (size model.nnet) model.nnet.outputs fs2 file0) ∧
      ∀ c file0 s fs3, Scripts env f model (size model.nnet) parts fs2 c → 0 < parts.length → OnDisk f (size model.nnet) model.nnet.outputs fs2 file0 →
        Runs c (WState.init file0) s → (∀ q < c.n, s.pc q = .done) →
        OnDisk f (size model.nnet) model.nnet.outputs fs3 s.file → fs3 f.X = fs2 f.X → fs3 f.T = fs2 f.T →
        ∃ m last fs' Y, step4 env f model.saved o4 fs3 = .ok m ∧ step5 env f m o5 fs3 = .ok (last, fs') ∧
          a'.predict env fs (.mat X) = .ok Y ∧ fs' f.Y = some ⟨Y, none, none⟩ ∧
          last.error fs' (.path f.T) (.path f.Y) = a'.error fs (.mat T) (.mat Y) := by
  obtain ⟨X1, T1, ea, t1, -, -⟩ := train_ok htr
  have hXT := checkBoth_of_reads (.mat X) (.mat T) t1
  obtain ⟨rfl, rfl⟩ : X1 = X ∧ T1 = T := ⟨congrArg Prod.fst hXT, congrArg Prod.snd hXT⟩
  obtain ⟨H, S, HT, w, p0, hN, p1, p2, p3, p4, -⟩ :=
    train_plain' hx (by rw [hcls]; exact hsq) hsel.1 hsel.2.1 hsel.2.2 hb hTw (by rw [hcls]; exact hhot) hw htr
  obtain ⟨b1, b2, b3, bH⟩ := (project_ok_iff _ _ _ _).1 p1
  have hXc : X1.cols = model.nnet.inputs := by rw [b1, gI]
  have hTc : T1.cols = model.nnet.outputs := by rw [p4, gO]
  have hnn : model.nnet.neurons ≠ [] := by rw [← gN]; exact b3
  have hproj : model.nnet.project env X1 = .ok H := by
    rw [← p1]; unfold NNet.project; rw [gN, gI]
  have hdd := hd
  unfold Names.Distinct at hd
  simp only [List.nodup_cons, List.mem_cons, List.not_mem_nil, or_false, not_or] at hd
  have hLw : size model.nnet = width model.nnet.neurons := (width_size hc).symm
  obtain ⟨fs1, s1, s2, s3, s4⟩ := step1_ok hcast hlvl p0 (by omega : 0 < T1.nrows) (by omega : 0 < X1.cols) (by omega : 0 < T1.cols) hd.1.1 fs
  have f1 : Fed env f.HH f.HT model fs1 [] := .start fs1 (by rw [s4 _ (Ne.symm hd.1.2.1) (Ne.symm hd.2.1.1)]; exact h1)
    (by rw [s4 _ (Ne.symm hd.1.2.2.1) (Ne.symm hd.2.1.2.1)]; exact h2)
  obtain ⟨fs2, u1, u2, u3, u4⟩ := step3_all hx hdd hc hnn hg hwc hsq hpos hout hTw hXc hTc hN p0 hhot hproj [first]
    (fun p hp => hpl p (by rw [List.mem_singleton] at hp; rw [hp]; exact List.mem_cons_self))
    (fun p hp => hne p (by rw [List.mem_singleton] at hp; rw [hp]; exact List.mem_cons_self)) fs1 [] f1 s2 s3
  have u1' : step3 env f model.saved first fs1 = .ok fs2 := by
    rw [List.foldlM_cons] at u1
    obtain ⟨x, hx1, hx2⟩ := bind_ok u1
    injection hx2 with hx2
    rw [hx1, hx2]
  have hpart := fun p (hp : p ∈ parts) => part_hold hx hc hg hwc hsq hnn hTw hXc hTc hN p0 hhot hproj p (hpl p (List.mem_cons_of_mem _ hp))
    (hne p (List.mem_cons_of_mem _ hp)) fs2 u3 u4
  have hdi := fed_disk hx hd.2.2.1.1 hg hsq u2
  refine ⟨fs1, fs2, s1, u1', scripts_exist fun p hp => ?_, ?_, ?_⟩
  · obtain ⟨e, e', S, HT, a1, a2, a3, -⟩ := hpart p hp
    exact ⟨e, e', S, HT, a1, a2, a3⟩
  · have key : (∀ d, fs2 f.HH = some d → d.data.WF ∧ d.data.nrows = size model.nnet ∧ d.data.cols = size model.nnet) ∧
        ∀ d, fs2 f.HT = some d → d.data.WF ∧ d.data.nrows = size model.nnet ∧ d.data.cols = model.nnet.outputs := by
      rcases hdi with ⟨i1, i2, _⟩ | ⟨h5, h5', i1, i2, _, i3⟩
      · rw [i1, i2]; simp
      · rw [i1, i2, hLw]
        exact ⟨fun d h => by injection h with h; subst h; exact ⟨i3.wfS, i3.rowsS, i3.colsS⟩,
          fun d h => by injection h with h; subst h; exact ⟨i3.wfT, i3.rowsT, i3.colsT⟩⟩
    obtain ⟨v, hv⟩ := cells_exist _ _ _ key.1
    obtain ⟨v', hv'⟩ := cells_exist _ _ _ key.2
    exact ⟨fun g => match g with | .hh => v | .ht => v', hv, hv'⟩
  intro c file0 s fs3 hsc hpn hon hr hdone hon' hfX hfT
  have hex : ∀ g, file0 g ≠ none := by
    rcases hdi with ⟨_, _, h⟩ | ⟨h5, h5', i1, i2, _⟩
    · exfalso
      simp only [List.nil_append, List.flatMap_cons, List.flatMap_nil, List.append_nil] at h
      have h0 := hne first List.mem_cons_self
      rw [samplesIn_rowsIn, samplesIn_rowsIn, rowsIn_zip, rowsIn_nos ([], []), List.map_eq_nil_iff] at h
      apply h0
      have hlen : (X1.rows.zip T1.rows).length = X1.nrows := by
        have : X1.rows.length = T1.rows.length := hN
        simp [this, Mat.nrows]
      rw [hlen] at h
      exact h
    · intro g hg0
      cases g with
      | hh => have := hon.1; rw [i1, hg0] at this; exact this
      | ht => have := hon.2; rw [i2, hg0] at this; exact this
  have hn : 0 < c.n := by rw [hsc.count]; exact hpn
  have hholds := fun g => C47_existing_files c file0 hex s hr hn hdone g
  rw [hLw] at hsc hon hon'
  have hfin := scripts_disk (by rw [← hLw]; exact hpos) hsc hpart hdi hon hholds hon'
  have hperm := parts_perm hN (first :: parts) hparts
  obtain ⟨m, last, fs', Y, k1, k2, k3, k4, k5, -⟩ := after_step3 env hl hx f hdd fs model hc hsq hnorm hout X1 T1 hTw hhot o4 o5 ho4 ho5 a a' gN gI gO gn rnd args kw r hsel
    hb hw htr hcls hwca fs3 _ (by simpa using hperm) (by simpa using hfin) (by rw [hfX]; exact u3) (by rw [hfT]; exact u4)
  exact ⟨m, last, fs', Y, k1, k2, k3, k4, k5⟩

/-- C113, all the scripts of step 3 started at the same time on a disk without the two files, in any interleaving in which no script creates a file
that another one has created in the meantime.

Missing for the full property: such interleavings lose data, see `C113_all_at_once_refuted`; they cannot happen if one script runs alone
first, see `C113_first_alone`. -/
theorem C113_all_at_once_partial (env : Env K) (hl : Lawful env) (hx : env.Exact) (cast : K → K) (hcast : ∀ x, cast x = x) (f : Names) (hd : f.Distinct)
    (lvl : Nat) (hlvl : lvl < 10) (fs : Files K) (h1 : fs f.HH = none) (h2 : fs f.HT = none)
    -- the model
    (model : ELM K) (hc : Consistent model.nnet) (hg : GivenWeights model) (hwc : model.classification ≠ some "wc" → model.wc = none)
    (hsq : model.classification = some "wc" → ∀ x : K, 0 ≤ x → env.sqrt x * env.sqrt x = x) (hnorm : 0 < model.nnet.norm)
    (hin : 0 < model.nnet.inputs) (hout : 0 < model.nnet.outputs) (hpos : 0 < size model.nnet)
    -- the data and the scripts
    (X T : Mat K) (hTw : T.WF) (hhot : model.classification = some "wc" → OneHot T) (parts : List (DataPart K))
    (hparts : (parts.flatMap fun p => sampleNos X.nrows p.istart p.icount).Perm (List.range X.nrows))
    (hne : ∀ p ∈ parts, sampleNos X.nrows p.istart p.icount ≠ []) (hpl : ∀ p ∈ parts, Plain p.object)
    (o4 o5 : ELM K) (ho4 : Plain o4) (ho5 : Plain o5)
    -- training in memory
    (a a' : ELM K) (gN : a.nnet.neurons = model.nnet.neurons) (gI : a.nnet.inputs = model.nnet.inputs)
    (gO : a.nnet.outputs = model.nnet.outputs) (gn : a.nnet.norm = model.nnet.norm) (rnd : Rnd) (args : List String) (kw : Kwargs K) (r : Option K) (hsel : "V" ∉ args ∧ "CV" ∉ args ∧ "LOO" ∉ args)
    (hb : 0 < kw.batch.getD a.batch) (hw : ∀ ws, kw.w = some ws → ∀ x ∈ ws, 0 ≤ x)
    (htr : a.train env fs rnd (.mat X) (.mat T) args kw = (.ok r, a')) (hcls : a'.classification = model.classification) (hwca : a'.wc = model.wc) :
    ∃ fs1, step1 cast f X T lvl fs = .ok fs1 ∧ (∃ c, Scripts env f model (size model.nnet) parts fs1 c) ∧
      ∀ c s fs3, Scripts env f model (size model.nnet) parts fs1 c →
        CleanRuns c (WState.init fun _ => none) s → (∀ q < c.n, s.pc q = .done) →
        OnDisk f (size model.nnet) model.nnet.outputs fs3 s.file → fs3 f.X = fs1 f.X → fs3 f.T = fs1 f.T →
        ∃ m last fs' Y, step4 env f model.saved o4 fs3 = .ok m ∧ step5 env f m o5 fs3 = .ok (last, fs') ∧
          a'.predict env fs (.mat X) = .ok Y ∧ fs' f.Y = some ⟨Y, none, none⟩ ∧
          last.error fs' (.path f.T) (.path f.Y) = a'.error fs (.mat T) (.mat Y) := by
  obtain ⟨X1, T1, ea, t1, -, -⟩ := train_ok htr
  have hXT := checkBoth_of_reads (.mat X) (.mat T) t1
  obtain ⟨rfl, rfl⟩ : X1 = X ∧ T1 = T := ⟨congrArg Prod.fst hXT, congrArg Prod.snd hXT⟩
  obtain ⟨H, S, HT, w, p0, hN, p1, p2, p3, p4, -⟩ :=
    train_plain' hx (by rw [hcls]; exact hsq) hsel.1 hsel.2.1 hsel.2.2 hb hTw (by rw [hcls]; exact hhot) hw htr
  obtain ⟨b1, b2, b3, bH⟩ := (project_ok_iff _ _ _ _).1 p1
  have hXc : X1.cols = model.nnet.inputs := by rw [b1, gI]
  have hTc : T1.cols = model.nnet.outputs := by rw [p4, gO]
  have hnn : model.nnet.neurons ≠ [] := by rw [← gN]; exact b3
  have hproj : model.nnet.project env X1 = .ok H := by
    rw [← p1]; unfold NNet.project; rw [gN, gI]
  have hdd := hd
  unfold Names.Distinct at hd
  simp only [List.nodup_cons, List.mem_cons, List.not_mem_nil, or_false, not_or] at hd
  have hLw : size model.nnet = width model.nnet.neurons := (width_size hc).symm
  obtain ⟨fs1, s1, s2, s3, s4⟩ := step1_ok hcast hlvl p0 (by omega : 0 < T1.nrows) (by omega : 0 < X1.cols) (by omega : 0 < T1.cols) hd.1.1 fs
  have j1 : fs1 f.HH = none := by rw [s4 _ (Ne.symm hd.1.2.1) (Ne.symm hd.2.1.1)]; exact h1
  have j2 : fs1 f.HT = none := by rw [s4 _ (Ne.symm hd.1.2.2.1) (Ne.symm hd.2.1.2.1)]; exact h2
  have hpart := fun p (hp : p ∈ parts) => part_hold hx hc hg hwc hsq hnn hTw hXc hTc hN p0 hhot hproj p (hpl p hp) (hne p hp) fs1 s2 s3
  refine ⟨fs1, s1, scripts_exist fun p hp => ?_, ?_⟩
  · obtain ⟨e, e', S, HT, a1, a2, a3, -⟩ := hpart p hp
    exact ⟨e, e', S, HT, a1, a2, a3⟩
  intro c s fs3 hsc hr hdone hon' hfX hfT
  have hperm := parts_perm hN parts hparts
  have hn : 0 < c.n := by
    rw [hsc.count]
    apply List.length_pos_of_ne_nil
    intro h0
    rw [h0] at hparts
    have := hparts.length_eq
    simp only [List.flatMap_nil, List.length_nil, List.length_range] at this
    omega
  have hholds := fun g => C47_no_lost_update_partial c _ s hr hn hdone g
  rw [hLw] at hsc hon'
  have hfin := scripts_disk (by rw [← hLw]; exact hpos) hsc hpart (P := []) (Or.inl ⟨j1, j2, rfl⟩)
    ⟨by rw [j1]; trivial, by rw [j2]; trivial⟩ hholds hon'
  rw [List.nil_append] at hfin
  obtain ⟨m, last, fs', Y, k1, k2, k3, k4, k5, -⟩ := after_step3 env hl hx f hdd fs model hc hsq hnorm hout X1 T1 hTw hhot o4 o5 ho4 ho5 a a' gN gI gO gn rnd args kw r hsel
    hb hw htr hcls hwca fs3 _ hperm hfin (by rw [hfX]; exact s2) (by rw [hfT]; exact s3)
  exact ⟨m, last, fs', Y, k1, k2, k3, k4, k5⟩

/-- Two scripts. -/
def exScripts : List (DataPart ℚ) := [⟨exModel 1 1 none none, 0, some 2⟩, ⟨exModel 1 2 none none, 2, none⟩]

/-- The data on the disk. -/
def exDisk : Files ℚ := Files.put (Files.put (fun _ => none) "x" ⟨⟨2, [[1, 0], [0, 1], [2, 3], [1, 1]]⟩, none, none⟩) "t" ⟨⟨1, [[1], [2], [3], [0]]⟩, none, none⟩

/-- The disk after the two scripts have ended in the state `s`. -/
def exAfter (s : WState ℚ) : Files ℚ := fun g => if g = "hh" then fileOf 2 2 (s.file .hh) else if g = "ht" then fileOf 2 1 (s.file .ht) else exDisk g

/-- The scripts of step 4; the error computed from the files. -/
def exFinish (fs : Files ℚ) : Except PyErr ℚ := do
  let m ← step4 QEnv.env exNames (exModel 1 2 none none).saved (exModel 1 2 none none) fs
  let (last, fs) ← step5 QEnv.env exNames m (exModel 1 2 none none) fs
  last.error fs (.path "t") (.path "y")

/-- C113 is false when all the scripts are started at the same time: both find the first file absent, the second one creates it again after the first has
added its matrix.  Nothing is reported, and the result is another model: its training error is 3/4, that of the model trained in memory is 39/50. -/
theorem C113_all_at_once_refuted :
    step1 id exNames ⟨2, [[1, 0], [0, 1], [2, 3], [1, 1]]⟩ ⟨1, [[1], [2], [3], [0]]⟩ 9 (fun _ => none) = .ok exDisk ∧
    (∃ c s fs3, Scripts QEnv.env exNames (exModel 1 2 none none) 2 exScripts exDisk c ∧ Runs c (WState.init fun _ => none) s ∧ (∀ q < 2, s.pc q = .done) ∧
      OnDisk exNames 2 1 fs3 s.file ∧ fs3 "x" = exDisk "x" ∧ fs3 "t" = exDisk "t" ∧ exFinish fs3 = .ok (3/4)) ∧
    (((exModel 1 2 none none).train QEnv.env (fun _ => none) ⟨fun _ => []⟩ (.mat ⟨2, [[1, 0], [0, 1], [2, 3], [1, 1]]⟩) (.mat ⟨1, [[1], [2], [3], [0]]⟩) [] {}).2.predict
        QEnv.env (fun _ => none) (.mat ⟨2, [[1, 0], [0, 1], [2, 3], [1, 1]]⟩)).bind
      (fun Y => (exModel 1 2 none none).error (fun _ => none) (.mat ⟨1, [[1], [2], [3], [0]]⟩) (.mat Y)) = .ok (39/50) := by
  refine ⟨by simp [step1, makeHdf5, makeArray, pyAssert, exNames, exDisk, Mat.nrows, Mat.map, bind, Except.bind], ?_, by decide +kernel⟩
  have h : ((schedule (scriptCtx QEnv.env exNames (exModel 1 2 none none) 2 exScripts exDisk) ([0, 1] ++ List.replicate 18 0 ++ List.replicate 17 1)
      (WState.init fun _ => none)).map fun t => (isDone (t.pc 0), isDone (t.pc 1), exFinish (exAfter t))) = some (true, true, .ok (3/4)) := by decide +kernel
  obtain ⟨t, h1, h2⟩ := Option.map_eq_some_iff.1 h
  simp only [Prod.mk.injEq, isDone_iff] at h2
  refine ⟨_, t, exAfter t, scriptCtx_ok ?_, schedule_sound h1, ?_, ⟨?_, ?_⟩, rfl, rfl, h2.2.2⟩
  · have hp : ∀ p ∈ exScripts, (partMats QEnv.env exNames (exModel 1 2 none none).saved p exDisk).isOk = true := by decide +kernel
    intro p hpm
    have := hp p hpm
    cases hq : partMats QEnv.env exNames (exModel 1 2 none none).saved p exDisk with
    | ok r => exact ⟨r, rfl⟩
    | error x => rw [hq] at this; cases this
  · intro p hp
    rcases (show p = 0 ∨ p = 1 by omega) with rfl | rfl
    · exact h2.1
    · exact h2.2.1
  · exact sameCells_fileOf 2 2 _
  · exact sameCells_fileOf 2 1 _

/-- The hypotheses of `C113_first_alone` are met: three scripts, the first one alone, the others in some interleaving, to the predictions. -/
example : ∃ a', exTrained.train (lawEnv QEnv.env) (fun _ => none) ⟨fun _ => []⟩ (.mat ⟨2, [[1, 0], [0, 1], [2, 3], [1, 1]]⟩)
      (.mat ⟨1, [[1], [2], [3], [0]]⟩) [] {} = (.ok none, a') ∧
    ∃ fs2 c file0 s fs3, Scripts (lawEnv QEnv.env) exNames exTrained 2 [⟨exModel 1 3 none none, 0, some 1⟩, ⟨exModel 1 2 none none, 1, some 1⟩] fs2 c ∧
      OnDisk exNames 2 1 fs2 file0 ∧ Runs c (WState.init file0) s ∧ (∀ q < c.n, s.pc q = .done) ∧ OnDisk exNames 2 1 fs3 s.file ∧
      ∃ m last fs' Y, step4 (lawEnv QEnv.env) exNames exTrained.saved (exModel 1 2 none none) fs3 = .ok m ∧
        step5 (lawEnv QEnv.env) exNames m (exModel 1 2 none none) fs3 = .ok (last, fs') ∧
        a'.predict (lawEnv QEnv.env) (fun _ => none) (.mat ⟨2, [[1, 0], [0, 1], [2, 3], [1, 1]]⟩) = .ok Y ∧ fs' "y" = some ⟨Y, none, none⟩ := by
  obtain ⟨a', h⟩ := train_plain_total (env := lawEnv QEnv.env) (fs := fun _ => none) (rnd := ⟨fun _ => []⟩) (e := exTrained)
    (X := ⟨2, [[1, 0], [0, 1], [2, 3], [1, 1]]⟩) (T := ⟨1, [[1], [2], [3], [0]]⟩) (args := []) (kw := {}) (lawEnv_exact _) (by simp) (by simp) (by simp)
    (by decide) (by simp) rfl rfl rfl (by decide) rfl exTrained_consistent rfl
  refine ⟨a', h, ?_⟩
  obtain ⟨X1, T1, ea, -, a2, a3⟩ := train_ok h
  have hea : ea.classification = none ∧ ea.wc = none := by
    have : (exTrained.parseArgs [] {}).1 = ea := congrArg Prod.fst a2
    rw [← this]
    exact ⟨rfl, rfl⟩
  obtain ⟨_, e2, n, c1, c2, c3⟩ := trainBody_plain (by simp) (by simp) (by simp) a3
  obtain ⟨c, rfl⟩ := addData_fields c1
  have hcw : a'.classification = none ∧ a'.wc = none := by
    rw [c3]
    simp [ELM.autoWc, hea]
  obtain ⟨fs1, fs2, -, hs3, ⟨c, hc⟩, ⟨file0, hfile⟩, hall⟩ := C113_first_alone (lawEnv QEnv.env) (lawEnv_lawful _) (lawEnv_exact _) id (fun _ => rfl) exNames
    (by unfold Names.Distinct exNames; decide) 9 (by decide) (fun _ => none) rfl rfl exTrained exTrained_consistent (fun h => by cases h) (fun _ => rfl)
    (fun h => by cases h) (by decide +kernel) (by decide) (by decide) (by decide) ⟨2, [[1, 0], [0, 1], [2, 3], [1, 1]]⟩ ⟨1, [[1], [2], [3], [0]]⟩
    (by simp [Mat.WF]) (fun h => by cases h) ⟨exModel 1 1 none none, 2, none⟩ [⟨exModel 1 3 none none, 0, some 1⟩, ⟨exModel 1 2 none none, 1, some 1⟩]
    (by decide) (by simp [sampleNos, Mat.nrows]) (by simp [Plain, exModel]) (exModel 1 2 none none) (exModel 1 2 none none)
    ⟨rfl, by decide⟩ ⟨rfl, by decide⟩ exTrained a' rfl rfl rfl rfl ⟨fun _ => []⟩ [] {} none (by simp) (by decide) (by rintro _ ⟨⟩) h
    hcw.1 hcw.2
  obtain ⟨s, hs, hd⟩ := runs_finish c file0 _ .refl
  obtain ⟨fs3, e1, e2, e3⟩ : ∃ fs3 : Files ℚ, OnDisk exNames 2 1 fs3 s.file ∧ fs3 "x" = fs2 "x" ∧ fs3 "t" = fs2 "t" :=
    ⟨fun g => if g = "hh" then fileOf 2 2 (s.file .hh) else if g = "ht" then fileOf 2 1 (s.file .ht) else fs2 g,
      ⟨sameCells_fileOf 2 2 _, sameCells_fileOf 2 1 _⟩, rfl, rfl⟩
  obtain ⟨m, last, fs', Y, k1, k2, k3, k4, -⟩ := hall c file0 s fs3 hc (by decide) hfile hs hd e1 e2 e3
  exact ⟨fs2, c, file0, s, fs3, hc, hfile, hs, hd, e1, m, last, fs', Y, k1, k2, k3, k4⟩

end Hpelm.Props
