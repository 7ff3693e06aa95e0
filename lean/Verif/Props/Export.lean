import Verif.ExportLemmas
import Verif.Props.Dag

/-! # C31, C55, C59, C60: the exported files -/

set_option linter.unusedSectionVars false
set_option linter.unusedSimpArgs false

namespace Verif.Props.Export
open Verif.ModArith (Res Fail)
open Verif.Algebra
open Verif.Dag
open Verif.Linear Verif.Clusters Verif.Simplification
open Verif.Props.Algebra (ok_bind GoodRenaming)
open Verif.Props.Dag
open Verif.Props.R1cs (Fits Same C37_round_trip)
open Verif.R1cs (writeFile readFile fieldSize)
open Verif.Props.Simplification (original Sat Valid EnoughFuel Tidy wires mem_wires C27_complete C28_sound_partial C29_pipeline C30_mapped plain
  plain_valid)

variable {p : Nat}

/-! ## C31 -/

/-- C31, witness list: whatever the order in which the hash map of the renumbering is visited, the exported list has position `i` holding
signal `x` exactly when the renumbering sends `x` to `i`. -/
theorem C31_witness (hp : p.Prime) (sched : Sched) (hs : sched.Valid) (fuel : List (Constraint Nat) → Nat) (hfuel : EnoughFuel fuel) (smp : Simplification.Input)
    (hv : Valid p smp) : ∃ out, simplification sched fuel smp = .ok out ∧
      ∀ order, order.Perm out.map → ∃ w, witnessVec order = .ok w ∧ w.length = out.map.length ∧
        ∀ x i, BMap.get out.map x = some i ↔ w[i]? = some x := by
  obtain ⟨out, h1, _, _, hmono, hfill, _⟩ := C29_pipeline hp sched hs fuel hfuel smp hv
  obtain ⟨out', subs, del, use, g1, g2, _⟩ := simplification_spec hp sched hs fuel hfuel smp hv.inputOK hv.prot
  rw [h1] at g1; injection g1 with g1; subst g1
  refine ⟨out, h1, fun order ho => ?_⟩
  have hmem : ∀ x i, (x, i) ∈ order ↔ BMap.get out.map x = some i := fun x i => by
    rw [ho.mem_iff, BMap.get_eq_some_iff g2.sorted]
  obtain ⟨w, w1, w2, w3⟩ := witnessVec_spec order (by
      rintro ⟨x, i⟩ he
      simp only
      rw [ho.length_eq, hfill]
      exact ⟨x, (hmem x i).1 he⟩) (by
      refine List.Nodup.map_on ?_ ?_
      · rintro ⟨x, i⟩ hx ⟨y, j⟩ hy hij
        simp only at hij
        subst hij
        have a1 := hmono x y i i ((hmem x i).1 hx) ((hmem y i).1 hy)
        have a2 := hmono y x i i ((hmem y i).1 hy) ((hmem x i).1 hx)
        have : x = y := by omega
        rw [this]
      · rw [ho.nodup_iff]
        exact List.Nodup.of_map Prod.fst (BMap.nodup_keys g2.sorted))
  exact ⟨w, w1, by rw [w2, ho.length_eq], fun x i => by rw [← hmem, w3]⟩

example : Valid 13 Props.Simplification.sample ∧ witnessVec [(7, 4), (0, 0), (3, 3), (1, 1), (2, 2)] = .ok [0, 1, 2, 3, 7] :=
  ⟨Props.Simplification.sample_valid, rfl⟩

theorem iterate_inv {σ : Type} (P : σ → Prop) (enc : Encoding) (f : σ → EncIter → Res (σ × Bool))
    (hf : ∀ s it s' b, P s → f s it = .ok (s', b) → P s') (fuel : Nat) : ∀ (it : EncIter) (s s' : σ), P s → iterate enc f fuel it s = .ok s' → P s' := by
  induction fuel with
  | zero => intro it s s' _ h; simp [iterate] at h
  | succ fuel ih =>
    intro it s s' hs h
    unfold iterate at h
    obtain ⟨⟨s1, b⟩, h1, h2⟩ := (Props.Algebra.bind_ok_iff _ _ _).1 h
    have hp1 := hf s it s1 b hs h1
    simp only at h2
    cases b with
    | false => simp only [Bool.false_eq_true, if_false] at h2; injection h2 with h2; subst h2; exact hp1
    | true =>
      simp only [if_true] at h2
      obtain ⟨es, he, h3⟩ := (Props.Algebra.bind_ok_iff _ _ _).1 h2
      clear h h1 h2 he
      induction es generalizing s1 with
      | nil => simp [pure, Except.pure] at h3; subst h3; exact hp1
      | cons e es ihe =>
        rw [List.foldlM_cons] at h3
        obtain ⟨s2, h4, h5⟩ := (Props.Algebra.bind_ok_iff _ _ _).1 h3
        obtain ⟨nx, _, h6⟩ := (Props.Algebra.bind_ok_iff _ _ _).1 h4
        exact ihe s2 (ih nx s1 s2 hp1 h6) h5

/-- C31, symbol file, for every encoding and every renumbering into `0..len-1`: a line shows −1 exactly when its signal was eliminated,
and the position of the signal otherwise. -/
theorem C31_symbols (enc : Encoding) (map : BMap Nat) (hmap : ∀ x i, BMap.get map x = some i → i < map.length) (lines : List SymElem)
    (h : listSym enc map = .ok lines) : ∀ l ∈ lines, 0 ≤ l.original ∧ (l.witness = -1 ↔ BMap.get map l.original.toNat = none) ∧
      ∀ i, BMap.get map l.original.toNat = some i → l.witness = i := by
  unfold listSym at h
  obtain ⟨it, _, h⟩ := (Props.Algebra.bind_ok_iff _ _ _).1 h
  refine iterate_inv (fun acc : List SymElem => ∀ l ∈ acc, 0 ≤ l.original ∧ (l.witness = -1 ↔ BMap.get map l.original.toNat = none) ∧
      ∀ i, BMap.get map l.original.toNat = some i → l.witness = i) enc _ ?_ _ it [] lines (by simp) h
  intro s it s' b hs hf
  injection hf with hf
  simp only [Prod.mk.injEq] at hf
  rw [← hf.1]
  unfold symIter
  generalize it.signals = sigs
  clear hf h
  induction sigs generalizing s with
  | nil => exact hs
  | cons x xs ih =>
    rw [List.foldl_cons]
    refine ih _ fun l hl => ?_
    rcases List.mem_append.1 hl with hl | hl
    · exact hs l hl
    · simp only [List.mem_singleton] at hl
      subst hl
      simp only [Int.toNat_natCast]
      refine ⟨by omega, ?_, ?_⟩
      · unfold symWitness
        cases hg : BMap.get map x.2 with
        | none => simp
        | some i =>
          have := hmap _ _ hg
          simp only [Option.getD_some]
          rw [if_neg (by omega)]
          simp
      · intro i hg
        have := hmap _ _ hg
        unfold symWitness
        rw [hg]
        simp only [Option.getD_some]
        rw [if_neg (by omega)]

/-- C31, symbol file of a whole program: it is written without abort and has one line per signal, with the same numbers and names as the
unsimplified one. -/
theorem C31_symbols_program_partial (hp : p.Prime) (sched : Sched) (hs : sched.Valid) (fuel : List (Constraint Nat) → Nat) (hfuel : EnoughFuel fuel)
    {ts : List Template} (h : Program p ts) (flags : Flags) :
    ∃ d smp enc out lines, buildDag ts = .ok d ∧ mapDag d p flags = .ok (smp, enc) ∧ simplification sched fuel smp = .ok out ∧
      listSym enc out.map = .ok lines ∧
      lines.map SymElem.original = (List.range' 1 (qualified (allComponents ts)).length).map (fun n : Nat => (n : Int)) ∧
      lines.map SymElem.symbol = qualified (allComponents ts) ∧
      ∀ l ∈ lines, (l.witness = -1 ↔ BMap.get out.map l.original.toNat = none) ∧
        ∀ i, BMap.get out.map l.original.toNat = some i → l.witness = i := by
  obtain ⟨d, h1, hb⟩ := buildDag_spec h.resolves
  obtain ⟨smp, enc, h2, hm⟩ := mapDag_eq h.named.order h.orderedKnown h.nonempty hb p flags
  have hv := mapped_valid h hb hm
  obtain ⟨out, h3, _, _, hmono, hfill, _⟩ := C29_pipeline hp sched hs fuel hfuel smp hv
  have h4 := listSym_eq h.named.order h.nonempty hm.enc out.map
  refine ⟨d, smp, enc, out, _, h1, h2, h3, h4, ?_, ?_, fun l hl => ?_⟩
  · rw [← (sym_spec h.named h.nonempty).1, List.map_flatMap, List.map_flatMap]
    congr 1
    funext y
    simp only [symLinesMapped, symLines, List.map_map]
    rfl
  · rw [← (sym_spec h.named h.nonempty).2.1, List.map_flatMap, List.map_flatMap]
    congr 1
    funext y
    simp only [symLinesMapped, symLines, List.map_map]
    rfl
  · exact (C31_symbols enc out.map (fun x i hx => (hfill i).2 ⟨x, hx⟩) _ h4 l hl).2

/-- Loop bounds for the examples. -/
theorem enough_fuel : EnoughFuel enough := fun _ => Nat.le_refl _

/-! ## The two ways to export a circuit -/

/-- constraint_generation/src/lib.rs:62-82 and 101-121, circom/src/execution_user.rs:45-51 with `--O1`/`--O2`: symbol lines and the data
of the constraint file.  `order` is the iteration order of the witness map. -/
def exportSimplified (sched : Sched) (fuel : List (Constraint Nat) → Nat) (order : BMap Nat → List (Nat × Nat)) (ts : List Template) (field : Int)
    (flags : Flags) (custom : Bool) : Res (List SymElem × R1cs.Data) := do
  let d ← buildDag ts
  let (smp, enc) ← mapDag d field flags
  let out ← simplification sched fuel smp
  let data ← listData smp enc out (order out.map) custom
  let lines ← listSym enc out.map
  .ok (lines, data)

/-- The same with `--O0`. -/
def exportPlain (ts : List Template) (field : Int) (custom : Bool) : Res (List SymElem × R1cs.Data) := do
  let d ← buildDag ts
  let data ← dagData d field custom
  let lines ← dagSym d
  .ok (lines, data)

/-- Everything known about an export with simplification. -/
structure Facts (p : Nat) (sched : Sched) (fuel : List (Constraint Nat) → Nat) (ts : List Template) (flags : Flags) (custom : Bool) (d : Graph)
    (smp : Simplification.Input) (enc : Encoding) (out : Output) (w : List Nat) (lines : List SymElem) (data : R1cs.Data) : Prop where
  graph : buildDag ts = .ok d
  list : mapDag d p flags = .ok (smp, enc)
  built : Built ts d
  mapped : Mapped ts d p flags smp enc
  valid : Valid p smp
  run : simplification sched fuel smp = .ok out
  lines : lines = (allInstances ts).flatMap (symLinesMapped ts out.map)
  data : data = {
    header := {
      field := p
      totalWires := out.map.length
      publicOutputs := smp.noPublicOutputs
      publicInputs := smp.noPublicInputs
      privateInputs := smp.noPrivateInputs
      labels := smp.maxSignal
      constraints := out.storage.length }
    constraints := out.storage.map fun c =>
      ((rename (fun x => (BMap.get out.map x).getD 0) c).a, (rename (fun x => (BMap.get out.map x).getD 0) c).b,
        (rename (fun x => (BMap.get out.map x).getD 0) c).c)
    signals := w
    custom := if custom then some (usedTable ts, appliedTable ts fun x => (BMap.get out.map x).getD 0) else none }
  inverse : ∀ x i, BMap.get out.map x = some i ↔ w[i]? = some x
  length : w.length = out.map.length
  front : ∀ x, x ≤ smp.noPublicOutputs + smp.noPublicInputs → BMap.get out.map x = some x
  kept : ∀ x ∈ smp.forbidden, x < smp.maxSignal → (BMap.get out.map x).isSome
  mono : ∀ x y i j, BMap.get out.map x = some i → BMap.get out.map y = some j → (x < y ↔ i < j)
  bound : ∀ x, (BMap.get out.map x).isSome → x < smp.maxSignal
  storage : ∀ c ∈ out.storage, Tidy p c ∧ ∀ x ∈ wires c, ∃ i, BMap.get out.map x = some i ∧ i < out.map.length

/-- Spec: names of custom gates have the form `name(parameters)`. -/
def GateNames (ts : List Template) : Prop := ∀ t ∈ ts, t.isCustomGate = true → '(' ∈ t.name

instance (ts : List Template) : Decidable (GateNames ts) := by unfold GateNames; infer_instance

theorem mem_orderedIds {ts : List Template} {t : Template} {x : Nat} (h : x ∈ orderedIds ts t) : ∃ s ∈ t.ordered, NMap.get (table ts t) s = some x := by
  unfold orderedIds at h
  exact List.mem_filterMap.1 h

theorem export_facts (hp : p.Prime) {sched : Sched} (hs : sched.Valid) {fuel : List (Constraint Nat) → Nat} (hfuel : EnoughFuel fuel)
    {order : BMap Nat → List (Nat × Nat)} (horder : ∀ m, (order m).Perm m) {ts : List Template} (h : Program p ts) (flags : Flags)
    {custom : Bool} (hname : custom = true → GateNames ts) :
    ∃ d smp enc out w lines data, exportSimplified sched fuel order ts p flags custom = .ok (lines, data) ∧
      Facts p sched fuel ts flags custom d smp enc out w lines data := by
  obtain ⟨d, h1, hb⟩ := buildDag_spec h.resolves
  have ho := h.named.order
  have hne := h.nonempty
  obtain ⟨smp, enc, h2, hm⟩ := mapDag_eq ho h.orderedKnown hne hb p flags
  have hv := mapped_valid h hb hm
  obtain ⟨out, h3, hfront, hkept, hmono, hfill, _⟩ := C29_pipeline hp sched hs fuel hfuel smp hv
  obtain ⟨out', h4, hst⟩ := C30_mapped hp sched hs fuel hfuel smp hv
  rw [h3] at h4; injection h4 with h4; subst h4
  obtain ⟨out', subs, del, use, h4, hfin, _⟩ := simplification_spec hp sched hs fuel hfuel smp hv.inputOK hv.prot
  rw [h3] at h4; injection h4 with h4; subst h4
  obtain ⟨out', h4, hw⟩ := C31_witness hp sched hs fuel hfuel smp hv
  rw [h3] at h4; injection h4 with h4; subst h4
  obtain ⟨w, hw1, hw2, hw3⟩ := hw _ (horder out.map)
  have hbound : ∀ x, (BMap.get out.map x).isSome → x < smp.maxSignal := by
    intro x hx
    rw [hfin.map x] at hx
    by_contra hge
    rw [if_neg (fun hk => hge hk.1)] at hx
    simp at hx
  have hcs : out.storage.mapM (fun c => c.applyCorrespondence fun s => BMap.get out.map s) =
      .ok (out.storage.map (rename fun x => (BMap.get out.map x).getD 0)) := by
    refine mapM_ok_of _ _ _ fun c hc => ?_
    have htidy := (hst c hc).1
    have h0 := hfront 0 (by omega)
    rw [applyCorrespondence_eq c (htidy c.a (by simp)).1 (htidy c.b (by simp)).1 (htidy c.c (by simp)).1]
    · congr 2
      funext x
      unfold corrMap
      split
      · rename_i hx
        subst hx
        simp only [Nat.default_eq_zero] at *
        rw [h0]; rfl
      · rfl
    · refine ⟨fun x hx hxd => ?_, fun x y z _ _ hx hy => ?_⟩
      · obtain ⟨i, hi, _⟩ := (hst c hc).2.2 x ((mem_wires c x).2 hx)
        refine ⟨i, hi, fun hid => hxd ?_⟩
        have := hmono 0 x 0 i h0 hi
        simp only [Nat.default_eq_zero] at hid ⊢
        omega
      · have a1 := hmono x y z z hx hy
        have a2 := hmono y x z z hy hx
        omega
  have hcustom : (if custom = true then (do
      let c ← listCustom enc out.map
      .ok (some c) : Res _) else .ok none) =
      .ok (if custom = true then some (usedTable ts, appliedTable ts fun x => (BMap.get out.map x).getD 0) else none) := by
    cases custom with
    | false => rfl
    | true =>
      simp only [if_true]
      rw [listCustom_eq ho hne hm.enc out.map (hname rfl), ok_bind]
      intro y hy t ht hc s hs
      obtain ⟨nm, hnm, hget⟩ := mem_orderedIds hs
      have hloc := h.ordered t (List.mem_of_getElem? ht) nm hnm
      obtain ⟨k, hk⟩ := List.mem_iff_getElem?.1 hloc
      rw [get_local h.named (List.mem_of_getElem? ht) hk] at hget
      injection hget with hget
      have hkl := (List.getElem?_eq_some_iff.1 hk).1
      have hforb : s + y.2.1 ∈ smp.forbidden := by
        refine (hm.forb _ (last_template hne) _).2 (Or.inr ⟨y, hy, ?_, ?_, ?_⟩)
        · rw [customAt_eq ht, hc]
        · omega
        · rw [namesAt_eq ht]; omega
      refine hkept _ hforb ?_
      have hmem : s + y.2.1 ∈ List.range' 1 (size ts (ts.length - 1)) := by
        rw [← allInstances_signals ho hne]
        refine List.mem_flatMap.2 ⟨y, hy, ?_⟩
        rw [List.mem_range'_1, namesAt_eq ht]
        omega
      rw [List.mem_range'_1] at hmem
      rw [hm.maxSignal]
      omega
  refine ⟨d, smp, enc, out, w, _, _, ?_, h1, h2, hb, hm, hv, h3, rfl, rfl, hw3, hw2, hfront, hkept, hmono, hbound,
    fun c hc => ⟨(hst c hc).1, (hst c hc).2.2⟩⟩
  unfold exportSimplified listData
  rw [h1, ok_bind, h2, ok_bind]
  simp only
  rw [h3, ok_bind, hcs, ok_bind, hw1, ok_bind, hcustom, ok_bind, ok_bind, listSym_eq ho hne hm.enc out.map, ok_bind, hm.modulus]
  simp only [List.length_map, List.map_map]
  rfl

theorem plain_facts {ts : List Template} (h : Program p ts) {custom : Bool} (hname : custom = true → GateNames ts) :
    ∃ d, buildDag ts = .ok d ∧ Built ts d ∧ exportPlain ts p custom = .ok ((allInstances ts).flatMap (symLines ts), {
      header := {
        field := p
        totalWires := size ts (ts.length - 1) + 1
        publicOutputs := noOut (ts.getLast h.nonempty)
        publicInputs := noPub (ts.getLast h.nonempty)
        privateInputs := noPriv (ts.getLast h.nonempty)
        labels := size ts (ts.length - 1) + 1
        constraints := (allConstraints ts d).length }
      constraints := (allConstraints ts d).map fun c => (c.a, c.b, c.c)
      signals := List.range (size ts (ts.length - 1) + 1)
      custom := if custom then some (usedTable ts, appliedTable ts fun x => x) else none }) := by
  obtain ⟨d, h1, hb⟩ := buildDag_spec h.resolves
  refine ⟨d, h1, hb, ?_⟩
  unfold exportPlain
  rw [h1, ok_bind, dagData_eq h.named.order h.nonempty hb h.orderedKnown p custom (fun hc => hname hc) (last_template h.nonempty), ok_bind,
    dagSym_eq h.named.order hb h.nonempty, ok_bind]

theorem length_qualified {ts : List Template} (h : WellNamed ts) (hne : ts ≠ []) :
    (qualified (allComponents ts)).length = size ts (ts.length - 1) := by
  rw [← (sym_spec h hne).2.1, List.length_map]
  have := congrArg List.length (symLines_original ts (allInstances ts))
  rw [allInstances_signals h.order hne] at this
  simpa using this

theorem symNumber_congr {l l' : List SymElem} (h : l.map (fun e => (e.original, e.symbol)) = l'.map fun e => (e.original, e.symbol)) (n : Name) :
    symNumber l n = symNumber l' n := by
  induction l generalizing l' with
  | nil => cases l' with
    | nil => rfl
    | cons b l' => simp at h
  | cons a l ih => cases l' with
    | nil => simp at h
    | cons b l' =>
      simp only [List.map_cons, List.cons.injEq, Prod.mk.injEq] at h
      obtain ⟨⟨h1, h2⟩, h3⟩ := h
      have := ih h3
      unfold symNumber at this ⊢
      by_cases hn : a.symbol = n
      · rw [List.find?_cons_of_pos (by simpa using hn), List.find?_cons_of_pos (by simpa [← h2] using hn)]
        simp [h1]
      · rw [List.find?_cons_of_neg (by simpa using hn), List.find?_cons_of_neg (by simpa [← h2] using hn)]
        exact this

theorem meaning_mapped (ts : List Template) (map : BMap Nat) (path s : Name) :
    meaning ((allInstances ts).flatMap (symLinesMapped ts map)) path s = meaning ((allInstances ts).flatMap (symLines ts)) path s := by
  unfold meaning
  split
  · rfl
  · apply symNumber_congr
    rw [List.map_flatMap, List.map_flatMap]
    congr 1
    funext y
    simp only [symLinesMapped, symLines, List.map_map]
    rfl

example : (match exportSimplified plain enough id demo 13 ⟨10, false, false⟩ true with
      | .ok (lines, _) => decide ((lines.take 9).map (fun l => (l.original, l.witness)) =
          [(1, 1), (2, 2), (3, 3), (4, 4), (5, 5), (6, 6), (7, 7), (8, -1), (9, -1)] ∧ (lines[16]?.map fun l => (l.original, l.witness)) = some (17, 8))
      | _ => false) = true := by decide +kernel

/-! ## C55 -/

/-- Spec: what a reader of the constraint file may rely on. -/
structure Header (p : Nat) (ts : List Template) (main : Template) (data : R1cs.Data) : Prop where
  field : data.header.field = p
  wires : data.header.totalWires = data.signals.length
  constraints : data.header.constraints = data.constraints.length
  outputs : data.header.publicOutputs = (main.outputs.names []).length
  publicInputs : data.header.publicInputs = (main.publicInputs.names []).length
  privateInputs : data.header.privateInputs = (main.privateInputs.names []).length
  labels : data.header.labels = (qualified (allComponents ts)).length + 1
  front : ∀ i, i ≤ data.header.publicOutputs + data.header.publicInputs → data.signals[i]? = some i
  increasing : data.signals.Pairwise (· < ·)
  known : ∀ x ∈ data.signals, x < data.header.labels
  occurring : ∀ c ∈ data.constraints, ∀ e ∈ c.1 ++ c.2.1 ++ c.2.2, e.1 < data.header.totalWires ∧ 0 < e.2 ∧ e.2 < p

/-- C55 without simplification: the header agrees with the contents, wire 0 is the constant, then come outputs and public inputs, and the
announced wires include all inputs and outputs.
Missing: templates declaring one name twice, as for C34. -/
theorem C55_plain_partial {ts : List Template} (h : Program p ts) {main : Template} (hmain : ts.getLast? = some main) (custom : Bool)
    (hname : custom = true → GateNames ts) :
    ∃ lines data, exportPlain ts p custom = .ok (lines, data) ∧ Header p ts main data ∧
      1 + data.header.publicOutputs + data.header.publicInputs + data.header.privateInputs ≤ data.header.totalWires := by
  obtain ⟨d, hd, hb, he⟩ := plain_facts h hname
  have hlast : ts.getLast h.nonempty = main := by
    rw [List.getLast?_eq_getLast_of_ne_nil h.nonempty] at hmain
    injection hmain
  have hsz := size_eq h.named.order (last_template h.nonempty)
  have hloc := noLoc_eq (ts.getLast h.nonempty)
  rw [hlast] at he hsz hloc
  obtain ⟨smp, enc, h2, hm⟩ := mapDag_eq h.named.order h.orderedKnown h.nonempty hb p ⟨0, false, false⟩
  have hv := mapped_valid h hb hm
  refine ⟨_, _, he, ⟨rfl, by simp, by simp, rfl, rfl, rfl, ?_, ?_, ?_, ?_, ?_⟩, ?_⟩
  · simp only [length_qualified h.named h.nonempty]
  · intro i hi
    simp only at hi ⊢
    rw [List.getElem?_range (by omega)]
  · exact List.pairwise_lt_range
  · intro x hx; simpa using hx
  · intro c hc e hce
    simp only [List.mem_map] at hc
    obtain ⟨k, hk, rfl⟩ := hc
    have hko := (original_perm hm).mem_iff.2 hk
    have hr := hv.range k hko e.1 (by
      unfold wires
      exact List.mem_map_of_mem hce)
    rw [hm.maxSignal] at hr
    have ht := hv.tidy k hko
    simp only at hr ⊢
    refine ⟨hr, ?_⟩
    simp only [List.mem_append] at hce
    rcases hce with (hce | hce) | hce
    · exact (ht k.a (by simp)).2 e hce
    · exact (ht k.b (by simp)).2 e hce
    · exact (ht k.c (by simp)).2 e hce
  · simp only
    omega

/-- C55 with simplification: the same except that the number of private inputs is the one of the source, some of which may have no wire
(`C55_violated`).
Missing: the bound on the announced inputs, and templates declaring one name twice. -/
theorem C55_simplified_partial (hp : p.Prime) {sched : Sched} (hs : sched.Valid) {fuel : List (Constraint Nat) → Nat} (hfuel : EnoughFuel fuel)
    {order : BMap Nat → List (Nat × Nat)} (horder : ∀ m, (order m).Perm m) {ts : List Template} (h : Program p ts) {main : Template}
    (hmain : ts.getLast? = some main) (flags : Flags) (custom : Bool) (hname : custom = true → GateNames ts) :
    ∃ lines data, exportSimplified sched fuel order ts p flags custom = .ok (lines, data) ∧ Header p ts main data := by
  obtain ⟨d, smp, enc, out, w, lines, data, he, hf⟩ := export_facts hp hs hfuel horder h flags hname
  have hlast : ts[ts.length - 1]? = some main := by rw [← List.getLast?_eq_getElem?]; exact hmain
  obtain ⟨o1, o2, o3⟩ := hf.mapped.outs main hlast
  have hd := hf.data
  refine ⟨lines, data, he, ?_⟩
  subst hd
  refine ⟨rfl, hf.length.symm, by simp, o1, o2, o3, ?_, ?_, ?_, ?_, ?_⟩
  · simp only [hf.mapped.maxSignal, length_qualified h.named h.nonempty]
  · intro i hi
    exact (hf.inverse i i).1 (hf.front i hi)
  · rw [List.pairwise_iff_getElem]
    intro i j hi hj hij
    have a := (hf.inverse _ _).2 (List.getElem?_eq_getElem hi)
    have b := (hf.inverse _ _).2 (List.getElem?_eq_getElem hj)
    exact (hf.mono _ _ _ _ a b).2 hij
  · intro x hx
    obtain ⟨i, hi⟩ := List.mem_iff_getElem?.1 hx
    exact hf.bound x (by rw [(hf.inverse x i).2 hi]; rfl)
  · intro c hc e hce
    simp only [List.mem_map] at hc
    obtain ⟨k, hk, rfl⟩ := hc
    obtain ⟨ht, hwires⟩ := hf.storage k hk
    have key : ∀ m ∈ [k.a, k.b, k.c], e ∈ (m.map fun e => ((BMap.get out.map e.1).getD 0, e.2)) →
        e.1 < out.map.length ∧ 0 < e.2 ∧ e.2 < (p : Int) := by
      intro m hm hem
      obtain ⟨e0, h0, rfl⟩ := List.mem_map.1 hem
      obtain ⟨i, hi, hil⟩ := hwires e0.1 (by
        unfold wires
        refine List.mem_map_of_mem ?_
        simp only [List.mem_append]
        simp only [List.mem_cons, List.not_mem_nil, or_false] at hm
        rcases hm with rfl | rfl | rfl
        · exact Or.inl (Or.inl h0)
        · exact Or.inl (Or.inr h0)
        · exact Or.inr h0)
      simp only [hi, Option.getD_some]
      exact ⟨hil, (ht m hm).2 e0 h0⟩
    simp only [List.mem_append] at hce
    rcases hce with (hce | hce) | hce
    · exact key k.a (by simp) hce
    · exact key k.b (by simp) hce
    · exact key k.c (by simp) hce

theorem demo_gates : GateNames demo := by decide +kernel

example : (match exportSimplified plain enough id demo 13 ⟨10, false, false⟩ true with
      | .ok (_, data) => decide (data.header = ⟨13, 9, 1, 2, 1, 26, 2⟩ ∧ data.signals = [0, 1, 2, 3, 4, 5, 6, 7, 17] ∧
          data.constraints = [([(6, 1)], [(8, 1), (5, 5)], [(1, 1)]), ([(4, 3), (2, 6)], [(7, 1)], [(8, 1)])])
      | _ => false) = true := by decide +kernel

/-- `template T() { signal input a; signal output b; b <== 1; }`. -/
def unused : Template where
  name := nm "T()"
  parameters := []
  isCustomGate := false
  outputs := sig "b"
  publicInputs := .nil
  privateInputs := sig "a"
  intermediates := .nil
  ordered := []
  connexions := []
  constraints := [⟨[], [], [(nm "b", 12), ([], 1)]⟩]

/-- C55 is false with simplification: the file announces two wires of which one is the constant, one an output, and a third is a private
input. -/
theorem C55_violated : ¬ ∀ ts : List Template, Program 13 ts → ∃ lines data,
    exportSimplified plain enough id ts 13 ⟨10, false, false⟩ false = .ok (lines, data) ∧
      1 + data.header.publicOutputs + data.header.publicInputs + data.header.privateInputs ≤ data.header.totalWires := by
  intro hall
  obtain ⟨lines, data, h1, h2⟩ := hall [unused] (by decide +kernel)
  have : (match exportSimplified plain enough id [unused] 13 ⟨10, false, false⟩ false with
      | .ok (_, data) => decide (data.header = ⟨13, 2, 1, 0, 1, 3, 1⟩)
      | _ => false) = true := by decide +kernel
  rw [h1] at this
  simp only [decide_eq_true_eq] at this
  rw [this] at h2
  simp at h2

/-! ## C59 -/

/-- Spec: the instances of custom gates, not looking inside custom gates, in depth-first order. -/
def gateComponents (ts : List Template) : Nat → Nat → Name → List (Template × Name)
  | 0, _, _ => []
  | f + 1, i, path =>
    match ts[i]? with
    | none => []
    | some t => if t.isCustomGate then [(t, path)] else t.connexions.flatMap fun c => gateComponents ts f c.2 (path ++ '.' :: c.1)

/-- All instances of custom gates. -/
def allGates (ts : List Template) : List (Template × Name) := gateComponents ts ts.length (ts.length - 1) mainPath

/-- The custom gates among some instances. -/
def gateAt (ts : List Template) (y : Nat × Nat × Name) : Option (Template × (Nat × Nat × Name)) :=
  ts[y.1]?.bind fun t => if t.isCustomGate then some (t, y) else none

theorem gateComponents_eq (ts : List Template) (ho : Ordered ts) (fuel : Nat) : ∀ (i o : Nat) (path : Name), i < ts.length →
    ((instancesIf ts (goOn ts) fuel i o path).filterMap (gateAt ts)).map (fun e => (e.1, e.2.2.2)) = gateComponents ts fuel i path := by
  induction fuel with
  | zero => intro i o path _; rfl
  | succ fuel ih =>
    intro i o path hi
    have ht : ts[i]? = some ts[i] := List.getElem?_eq_getElem hi
    unfold instancesIf gateComponents
    rw [ht, List.filterMap_cons]
    simp only [gateAt, ht, Option.bind_some, goOn, customAt_eq ht]
    by_cases hc : ts[i].isCustomGate = true
    · simp [hc]
    · simp only [Bool.not_eq_true] at hc
      simp only [hc, Bool.false_eq_true, if_false, Bool.not_false, if_true]
      rw [List.filterMap_flatMap, List.map_flatMap, ← kidsAt_flatMap ht fun n j => gateComponents ts fuel j (path ++ '.' :: n)]
      refine List.flatMap_congr fun k hk => ?_
      rw [kidsAt_eq ht] at hk
      have := ho i _ ht _ (layout_target hk)
      simp only at this
      exact ih _ _ _ (by omega)

theorem applied_gates (ts : List Template) (g : Nat → Nat) (l : List (Nat × Nat × Name)) :
    l.flatMap (appliedList ts g) = (l.filterMap (gateAt ts)).map fun e => (e.1.name, (orderedIds ts e.1).map fun s => g (s + e.2.2.1)) := by
  induction l with
  | nil => rfl
  | cons y l ih =>
    rw [List.flatMap_cons, ih, List.filterMap_cons]
    unfold appliedList gateAt
    cases ht : ts[y.1]? with
    | none => simp
    | some t =>
      by_cases hc : t.isCustomGate = true
      · simp [hc]
      · simp [hc]

theorem ordered_meaning {ts : List Template} (h : Program p ts) {y : Nat × Nat × Name} (hy : y ∈ allInstances ts) {t : Template}
    (ht : ts[y.1]? = some t) :
    (orderedIds ts t).map (fun s => s + y.2.1) = t.ordered.map (meaning ((allInstances ts).flatMap (symLines ts)) y.2.2) := by
  have hmem := List.mem_of_getElem? ht
  have hord := h.ordered t hmem
  have hne : ∀ s ∈ locNames t, s ≠ [] := by
    intro s hs
    rw [locNames_eq] at hs
    obtain ⟨id, _, r, rfl, _, hpl⟩ := names_base t.wires (h.named.proper t hmem) [] s hs
    intro h0
    simp only [List.nil_append, List.append_eq_nil_iff] at h0
    exact hpl.1 h0.1
  unfold orderedIds
  revert hord
  generalize t.ordered = l
  intro hord
  induction l with
  | nil => rfl
  | cons s l ih =>
    have hs := hord s (by simp)
    obtain ⟨k, hk⟩ := List.mem_iff_getElem?.1 hs
    have hg := get_local h.named hmem hk
    rw [List.filterMap_cons, hg]
    simp only [List.map_cons]
    rw [ih fun s' hs' => hord s' (by simp [hs']), meaning_eq h.named h.nonempty hy ht (Or.inr (Or.inl hs))]
    unfold global
    rw [if_neg (hne s hs), hg]
    rfl

/-- Spec: a custom gate section lists every custom gate of the program with name and parameters, and for every instance outside custom
gates a reference to a gate of that name and the wires of its signals in declaration order. -/
structure Gates (ts : List Template) (lines : List SymElem) (signals : List Nat) (used : List (List Nat × List Int))
    (applied : List (Nat × List Nat)) : Prop where
  used : List.Forall₂ (fun t u => ∃ b args, t.name = b ++ '(' :: args ∧ '(' ∉ args ∧ u = (utf8 b, t.parameters))
    (ts.filter Template.isCustomGate) used
  applied : List.Forall₂ (fun c a => (∃ u, (ts.filter Template.isCustomGate)[a.1]? = some u ∧ u.name = c.1.name) ∧
    a.2.map (fun i => signals[i]?) = c.1.ordered.map fun s => some (meaning lines c.2 s)) (allGates ts) applied

theorem baseName_spec {n : Name} (h : '(' ∈ n) : ∃ args, n = baseName n ++ '(' :: args ∧ '(' ∉ args := by
  have : ∀ l : List Char, '(' ∈ l → ∃ a, l = a ++ '(' :: (l.dropWhile (· ≠ '(')).tail ∧ '(' ∉ a := by
    intro l hl
    induction l with
    | nil => cases hl
    | cons c l ih =>
      by_cases hc : c = '('
      · subst hc
        exact ⟨[], by simp, by simp⟩
      · obtain ⟨a, h1, h2⟩ := ih ((List.mem_cons.1 hl).resolve_left fun h => hc h.symm)
        refine ⟨c :: a, ?_, ?_⟩
        · rw [List.dropWhile_cons_of_pos (by simpa using hc), List.cons_append, ← h1]
        · simp only [List.mem_cons, not_or]
          exact ⟨fun h => hc h.symm, h2⟩
  obtain ⟨a, h1, h2⟩ := this n.reverse (by simpa using h)
  refine ⟨a.reverse, ?_, by simpa using h2⟩
  have := congrArg List.reverse h1
  simp only [List.reverse_reverse, List.reverse_append, List.reverse_cons, List.append_assoc, List.singleton_append] at this
  exact this

theorem gates_spec {ts : List Template} (h : Program p ts) (hname : GateNames ts) (g : Nat → Nat) (signals : List Nat)
    (hg : ∀ y ∈ allInstances ts, ∀ t, ts[y.1]? = some t → t.isCustomGate = true → ∀ s ∈ orderedIds ts t, signals[g (s + y.2.1)]? = some (s + y.2.1)) :
    Gates ts ((allInstances ts).flatMap (symLines ts)) signals (usedTable ts) (appliedTable ts g) := by
  constructor
  · unfold usedTable gates
    rw [List.forall₂_map_right_iff]
    refine List.forall₂_same.2 fun t ht => ?_
    obtain ⟨h1, h2⟩ := List.mem_filter.1 ht
    obtain ⟨args, h3, h4⟩ := baseName_spec (hname t h1 h2)
    exact ⟨_, args, h3, h4, rfl⟩
  · have hlen := List.length_pos_of_ne_nil h.nonempty
    unfold appliedTable allGates
    rw [← gateComponents_eq ts h.named.order ts.length (ts.length - 1) 0 mainPath (by omega), applied_gates, List.map_map,
      List.forall₂_map_right_iff, List.forall₂_map_left_iff]
    refine List.forall₂_same.2 fun e he => ?_
    obtain ⟨y, hy, hye⟩ := List.mem_filterMap.1 he
    unfold gateAt at hye
    cases ht : ts[y.1]? with
    | none => rw [ht] at hye; simp at hye
    | some t =>
      rw [ht] at hye
      simp only [Option.bind_some] at hye
      split at hye
      · rename_i hc
        injection hye with hye
        subst hye
        have hall := visited_mem y hy
        simp only [Function.comp_apply]
        refine ⟨?_, ?_⟩
        · have hex : ∃ x ∈ (gates ts).map Template.name, decide (x = t.name) = true :=
            ⟨t.name, List.mem_map_of_mem (List.mem_filter.2 ⟨List.mem_of_getElem? ht, hc⟩), by simp⟩
          have hlt := List.findIdx_lt_length_of_exists hex
          have hlt' : ((gates ts).map Template.name).findIdx (fun x => decide (x = t.name)) < (gates ts).length := by simpa using hlt
          refine ⟨(gates ts)[((gates ts).map Template.name).findIdx (fun x => decide (x = t.name))], List.getElem?_eq_getElem hlt', ?_⟩
          have := List.findIdx_getElem (w := hlt)
          simpa using this
        · rw [List.map_map]
          have hm := congrArg (List.map some) (ordered_meaning h hall ht)
          rw [List.map_map, List.map_map] at hm
          refine Eq.trans (List.map_congr_left fun s hs => ?_) hm
          simp only [Function.comp_apply]
          exact hg y hall t ht hc s hs
      · simp at hye

theorem ordered_range {ts : List Template} (h : Program p ts) {y : Nat × Nat × Name} (hy : y ∈ allInstances ts) {t : Template}
    (ht : ts[y.1]? = some t) {s : Nat} (hs : s ∈ orderedIds ts t) : y.2.1 < s + y.2.1 ∧ s + y.2.1 ≤ y.2.1 + (namesAt ts y.1).length ∧
      s + y.2.1 < size ts (ts.length - 1) + 1 := by
  obtain ⟨nm, hnm, hget⟩ := mem_orderedIds hs
  have hloc := h.ordered t (List.mem_of_getElem? ht) nm hnm
  obtain ⟨k, hk⟩ := List.mem_iff_getElem?.1 hloc
  rw [get_local h.named (List.mem_of_getElem? ht) hk] at hget
  injection hget with hget
  have hkl := (List.getElem?_eq_some_iff.1 hk).1
  rw [namesAt_eq ht]
  have hmem : s + y.2.1 ∈ List.range' 1 (size ts (ts.length - 1)) := by
    rw [← allInstances_signals h.named.order h.nonempty]
    refine List.mem_flatMap.2 ⟨y, hy, ?_⟩
    rw [List.mem_range'_1, namesAt_eq ht]
    omega
  rw [List.mem_range'_1] at hmem
  omega

/-- C59 without simplification.  Missing: templates declaring one name twice, as for C34. -/
theorem C59_plain_partial {ts : List Template} (h : Program p ts) (hname : GateNames ts) :
    ∃ lines data used applied, exportPlain ts p true = .ok (lines, data) ∧ data.custom = some (used, applied) ∧
      Gates ts lines data.signals used applied := by
  obtain ⟨d, hd, hb, he⟩ := plain_facts h (custom := true) fun _ => hname
  refine ⟨_, _, _, _, he, rfl, gates_spec h hname _ _ fun y hy t ht _ s hs => ?_⟩
  exact List.getElem?_range (ordered_range h hy ht hs).2.2

/-- C59 with simplification: no signal of a custom gate is eliminated, so the table can always be written.
Missing: templates declaring one name twice, as for C34. -/
theorem C59_simplified_partial (hp : p.Prime) {sched : Sched} (hs : sched.Valid) {fuel : List (Constraint Nat) → Nat} (hfuel : EnoughFuel fuel)
    {order : BMap Nat → List (Nat × Nat)} (horder : ∀ m, (order m).Perm m) {ts : List Template} (h : Program p ts) (hname : GateNames ts)
    (flags : Flags) :
    ∃ lines data used applied, exportSimplified sched fuel order ts p flags true = .ok (lines, data) ∧ data.custom = some (used, applied) ∧
      Gates ts lines data.signals used applied := by
  obtain ⟨d, smp, enc, out, w, lines, data, he, hf⟩ := export_facts hp hs hfuel horder h flags (custom := true) fun _ => hname
  have hd := hf.data
  have hl := hf.lines
  subst hd hl
  refine ⟨_, _, _, _, he, rfl, ?_⟩
  have hg := gates_spec h hname (fun x => (BMap.get out.map x).getD 0) w (by
    intro y hy t ht hc s hso
    obtain ⟨h1, h2, h3⟩ := ordered_range h hy ht hso
    have hforb : s + y.2.1 ∈ smp.forbidden :=
      (hf.mapped.forb _ (last_template h.nonempty) _).2 (Or.inr ⟨y, hy, by rw [customAt_eq ht, hc], h1, h2⟩)
    obtain ⟨i, hi⟩ := Option.isSome_iff_exists.1 (hf.kept _ hforb (by rw [hf.mapped.maxSignal]; exact h3))
    simp only [hi, Option.getD_some]
    exact (hf.inverse _ _).1 hi)
  refine ⟨hg.used, ?_⟩
  simp only [meaning_mapped]
  exact hg.applied

example : (match exportSimplified plain enough id demo 13 ⟨10, false, false⟩ true with
      | .ok (_, data) => decide (data.custom = some ([([71], [])], [(0, [7, 6])]))
      | _ => false) = true := by decide +kernel

/-! ## C60 -/

/-- Spec: every constraint of every component of the source program holds. -/
def AllHold (ts : List Template) (lines : List SymElem) (ρ : Nat → ZMod p) : Prop :=
  ρ 0 = 1 ∧ ∀ c ∈ allComponents ts, ∀ k ∈ c.1.constraints, k.Holds fun s => ρ (meaning lines c.2 s)

/-- Spec: a wire assignment satisfies the constraints of a file. -/
def FileSat (file : R1cs.Data) (σ : Nat → ZMod p) : Prop :=
  σ 0 = 1 ∧ ∀ c ∈ file.constraints, ev σ c.1 * ev σ c.2.1 = ev σ c.2.2

/-- Spec: sizes for which the file format has room. -/
structure Small (data : R1cs.Data) : Prop where
  field : fieldSize data.header.field < 2 ^ 32
  labels : data.header.labels < 2 ^ 32
  constraints : data.constraints.length < 2 ^ 32
  used : ∀ used applied, data.custom = some (used, applied) → used.length < 2 ^ 32 ∧
    ∀ g ∈ used, 0 ∉ g.1 ∧ g.2.length < 2 ^ 32 ∧ ∀ x ∈ g.2, 0 ≤ x ∧ x < data.header.field
  applied : ∀ used applied, data.custom = some (used, applied) → applied.length < 2 ^ 32 ∧
    ∀ g ∈ applied, g.1 < 2 ^ 32 ∧ g.2.length < 2 ^ 32 ∧ ∀ x ∈ g.2, x < 2 ^ 64
  total : (writeFile data).length < 2 ^ 63

theorem Header.fits {ts : List Template} {main : Template} {data : R1cs.Data} (hp : 0 < p) (h : Header p ts main data)
    (hn : noPriv main < data.header.labels) (hout : noOut main + noPub main < data.header.labels)
    (hwf : ∀ c ∈ data.constraints, c.1.WF ∧ c.2.1.WF ∧ c.2.2.WF) (hs : Small data) : Fits data := by
  have hlen : data.signals.length ≤ data.header.labels := by
    have hnd : data.signals.Nodup := h.increasing.imp fun hab => Nat.ne_of_lt hab
    have := (hnd.subperm (fun x hx => List.mem_range.2 (h.known x hx) : data.signals ⊆ List.range data.header.labels)).length_le
    simpa using this
  have hl := hs.labels
  have ho := h.outputs
  have hpi := h.publicInputs
  have hpr := h.privateInputs
  unfold noOut noPub at hout
  unfold noPriv at hn
  have hmap : ∀ c ∈ data.constraints, ∀ m : CMap Nat, m.WF → (∀ e ∈ m, e ∈ c.1 ++ c.2.1 ++ c.2.2) → R1cs.FitsMap data.header.field m := by
    intro c hc m hw hsub
    have hin : ∀ e ∈ m, e.1 < data.header.totalWires ∧ 0 < e.2 ∧ e.2 < p := fun e he => h.occurring c hc e (hsub e he)
    refine ⟨hw, ?_, fun e he => ?_⟩
    · have : m.keys ⊆ List.range data.header.totalWires := by
        intro x hx
        obtain ⟨e, he, rfl⟩ := List.mem_map.1 hx
        exact List.mem_range.2 (hin e he).1
      have := ((show m.keys.Nodup from hw).subperm this).length_le
      simp only [List.length_range, CMap.keys, List.length_map] at this
      have := h.wires
      omega
    · obtain ⟨a, b, c⟩ := hin e he
      have := h.wires
      rw [h.field]
      exact ⟨by omega, by omega, c⟩
  refine ⟨by rw [h.field]; omega, hs.field, by omega, by omega, by omega, by omega, h.constraints, hs.constraints, h.wires, by omega, ?_, ?_,
    hs.used, hs.applied, hs.total⟩
  · intro x hx
    have := h.known x hx
    have : (2 : Nat) ^ 32 < 2 ^ 64 := by decide
    omega
  · intro c hc
    obtain ⟨h1, h2, h3⟩ := hwf c hc
    refine ⟨hmap c hc _ h1 ?_, hmap c hc _ h2 ?_, hmap c hc _ h3 ?_⟩ <;> intro e he <;> simp only [List.mem_append]
    · exact Or.inl (Or.inl he)
    · exact Or.inl (Or.inr he)
    · exact Or.inr he

theorem ev_same {m m' : CMap Nat} (hw : m.WF) (h : Same m m') (σ : Nat → ZMod p) : ev σ m' = ev σ m := by
  apply ev_perm
  have n1 : m'.Nodup := List.Nodup.of_map Prod.fst h.1
  have n2 : m.Nodup := List.Nodup.of_map Prod.fst hw
  rw [List.perm_ext_iff_of_nodup n1 n2]
  rintro ⟨k, v⟩
  constructor
  · intro hm
    apply CMap.get_mem
    rw [← h.2]
    exact CMap.get_of_mem h.1 hm
  · intro hm
    apply CMap.get_mem
    rw [h.2]
    exact CMap.get_of_mem hw hm

theorem fileSat_same {data file : R1cs.Data} (hwf : ∀ c ∈ data.constraints, c.1.WF ∧ c.2.1.WF ∧ c.2.2.WF)
    (h : List.Forall₂ (fun c c' => Same c.1 c'.1 ∧ Same c.2.1 c'.2.1 ∧ Same c.2.2 c'.2.2) data.constraints file.constraints)
    (σ : Nat → ZMod p) : FileSat file σ ↔ FileSat data σ := by
  unfold FileSat
  refine and_congr Iff.rfl ?_
  revert hwf h
  generalize data.constraints = l
  generalize file.constraints = l'
  intro hwf h
  induction h with
  | nil => simp
  | @cons c c' l l' hc _ ih =>
    obtain ⟨h1, h2, h3⟩ := hc
    obtain ⟨w1, w2, w3⟩ := hwf c (by simp)
    simp only [List.forall_mem_cons]
    rw [ev_same w1 h1, ev_same w2 h2, ev_same w3 h3, ih fun c hc => hwf c (by simp [hc])]

theorem allHold_iff {ts : List Template} (h : Program p ts) {d : Graph} (hb : Built ts d) {flags : Flags} {smp : Simplification.Input}
    {enc : Encoding} (h2 : mapDag d p flags = .ok (smp, enc)) (h1 : buildDag ts = .ok d) (ρ : Nat → ZMod p) :
    Sat (original smp) ρ ↔ AllHold ts ((allInstances ts).flatMap (symLines ts)) ρ := by
  obtain ⟨d', lines, smp', enc', g1, g2, g3, g4⟩ := C35_meaning_partial h flags
  rw [h1] at g1; injection g1 with g1; subst g1
  rw [h2] at g3; injection g3 with g3
  rw [Prod.mk.injEq] at g3
  obtain ⟨g3, _⟩ := g3
  subst g3
  rw [dagSym_eq h.named.order hb h.nonempty] at g2
  injection g2 with g2; subst g2
  exact g4 ρ

theorem noPriv_lt {ts : List Template} (h : Program p ts) {main : Template} (hmain : ts.getLast? = some main) :
    noPriv main < (qualified (allComponents ts)).length + 1 ∧ noOut main + noPub main < (qualified (allComponents ts)).length + 1 := by
  have hlast : ts[ts.length - 1]? = some main := by rw [← List.getLast?_eq_getElem?]; exact hmain
  have hsz := size_eq h.named.order hlast
  have hloc := noLoc_eq main
  rw [length_qualified h.named h.nonempty]
  omega

theorem holds_rename {f : Nat → Nat} (σ : Nat → ZMod p) (c : Constraint Nat) :
    ev σ (rename f c).a * ev σ (rename f c).b = ev σ (rename f c).c ↔ c.Holds fun x => σ (f x) := by
  unfold rename Constraint.Holds
  simp only [ev_rename]

/-- C60 without simplification: an assignment satisfies the written file, as a reader understands it, exactly when every constraint of
every component of the program holds for the values of the signals it names.
Missing: templates declaring one name twice, as for C34. -/
theorem C60_plain_partial (hp : p.Prime) {ts : List Template} (h : Program p ts) (custom : Bool) (hname : custom = true → GateNames ts) :
    ∃ lines data, exportPlain ts p custom = .ok (lines, data) ∧ (Small data → ∃ file, readFile (writeFile data) = .ok file ∧
      file.signals = List.range (lines.length + 1) ∧ ∀ ρ : Nat → ZMod p, FileSat file ρ ↔ AllHold ts lines ρ) := by
  obtain ⟨d, hd, hb, he⟩ := plain_facts h hname
  have hmain := List.getLast?_eq_getLast_of_ne_nil h.nonempty
  obtain ⟨lines, data, he', hH, _⟩ := C55_plain_partial h hmain custom hname
  rw [he] at he'; injection he' with he'
  rw [Prod.mk.injEq] at he'
  obtain ⟨hl, hdata⟩ := he'
  refine ⟨lines, data, by rw [he, ← hl, ← hdata], fun hsmall => ?_⟩
  obtain ⟨smp, enc, h2, hm⟩ := mapDag_eq h.named.order h.orderedKnown h.nonempty hb p ⟨0, false, false⟩
  have hv := mapped_valid h hb hm
  have hcs : data.constraints = (allConstraints ts d).map fun c => (c.a, c.b, c.c) := by rw [← hdata]
  have hwf : ∀ c ∈ data.constraints, c.1.WF ∧ c.2.1.WF ∧ c.2.2.WF := by
    intro c hc
    rw [hcs] at hc
    obtain ⟨k, hk, rfl⟩ := List.mem_map.1 hc
    have ht := hv.tidy k ((original_perm hm).mem_iff.2 hk)
    exact ⟨(ht k.a (by simp)).1, (ht k.b (by simp)).1, (ht k.c (by simp)).1⟩
  obtain ⟨a1, a2⟩ := noPriv_lt h hmain
  have hfits := hH.fits hp.pos (by rw [hH.labels]; exact a1) (by rw [hH.labels]; exact a2) hwf hsmall
  obtain ⟨file, f1, f2, f3, f4, f5⟩ := C37_round_trip data hfits
  refine ⟨file, f1, ?_, fun ρ => ?_⟩
  · rw [f3, ← hdata, ← hl]
    have := congrArg List.length (symLines_original ts (allInstances ts))
    rw [allInstances_signals h.named.order h.nonempty] at this
    simp only [List.length_map, List.length_range'] at this
    rw [this]
  · rw [fileSat_same hwf f5, ← hl, ← allHold_iff h hb h2 hd ρ]
    refine and_congr Iff.rfl ?_
    rw [hcs]
    constructor
    · intro hall c hc
      exact hall _ (List.mem_map_of_mem ((original_perm hm).mem_iff.1 hc))
    · intro hall c hc
      obtain ⟨k, hk, rfl⟩ := List.mem_map.1 hc
      exact hall k ((original_perm hm).mem_iff.2 hk)

/-- C60 with simplification, for every optimisation setting, schedule and hash order.  Every solution of the program satisfies the
written file.  If the program has a solution, every solution of the file comes from one of the program.  The wire map says which signal
each wire is; wire `i` is signal `i` for the constant, the outputs and the public inputs.
Missing: programs without solutions (`C28_violated`), templates declaring one name twice. -/
theorem C60_simplified_partial (hp : p.Prime) {sched : Sched} (hs : sched.Valid) {fuel : List (Constraint Nat) → Nat} (hfuel : EnoughFuel fuel)
    {order : BMap Nat → List (Nat × Nat)} (horder : ∀ m, (order m).Perm m) {ts : List Template} (h : Program p ts) (flags : Flags)
    (custom : Bool) (hname : custom = true → GateNames ts) :
    ∃ lines data, exportSimplified sched fuel order ts p flags custom = .ok (lines, data) ∧ (Small data →
      ∃ file, readFile (writeFile data) = .ok file ∧
        (∀ i, i ≤ file.header.publicOutputs + file.header.publicInputs → file.signals[i]? = some i) ∧
        (∀ ρ : Nat → ZMod p, AllHold ts lines ρ → FileSat file fun i => ρ (file.signals.getD i 0)) ∧
        ((∃ ρ : Nat → ZMod p, AllHold ts lines ρ) → ∀ σ : Nat → ZMod p, FileSat file σ →
          ∃ ρ : Nat → ZMod p, AllHold ts lines ρ ∧ ∀ i x, file.signals[i]? = some x → ρ x = σ i)) := by
  obtain ⟨d, smp, enc, out, w, lines, data, he, hf⟩ := export_facts hp hs hfuel horder h flags hname
  have hmain := List.getLast?_eq_getLast_of_ne_nil h.nonempty
  obtain ⟨lines', data', he', hH⟩ := C55_simplified_partial hp hs hfuel horder h hmain flags custom hname
  rw [he] at he'; injection he' with he'
  rw [Prod.mk.injEq] at he'
  obtain ⟨hl, hdata⟩ := he'
  subst hl hdata
  refine ⟨lines, data, he, fun hsmall => ?_⟩
  set f : Nat → Nat := fun x => (BMap.get out.map x).getD 0 with hfdef
  have hcs : data.constraints = out.storage.map fun c => ((rename f c).a, (rename f c).b, (rename f c).c) := by rw [hf.data]
  have hsig : data.signals = w := by rw [hf.data]
  have hinj : ∀ c ∈ out.storage, ∀ x ∈ wires c, ∀ y ∈ wires c, f x = f y → x = y := by
    intro c hc x hx y hy hxy
    obtain ⟨i, hi, _⟩ := (hf.storage c hc).2 x hx
    obtain ⟨j, hj, _⟩ := (hf.storage c hc).2 y hy
    simp only [hfdef, hi, hj, Option.getD_some] at hxy
    subst hxy
    have b1 := hf.mono _ _ _ _ hi hj
    have b2 := hf.mono _ _ _ _ hj hi
    omega
  have hwf : ∀ c ∈ data.constraints, c.1.WF ∧ c.2.1.WF ∧ c.2.2.WF := by
    intro c hc
    rw [hcs] at hc
    obtain ⟨k, hk, rfl⟩ := List.mem_map.1 hc
    have ht := (hf.storage k hk).1
    have hi := hinj k hk
    refine ⟨wf_rename f (ht k.a (by simp)).1 ?_, wf_rename f (ht k.b (by simp)).1 ?_, wf_rename f (ht k.c (by simp)).1 ?_⟩
    · exact fun x hx y hy => hi x ((mem_wires k x).2 (Or.inl hx)) y ((mem_wires k y).2 (Or.inl hy))
    · exact fun x hx y hy => hi x ((mem_wires k x).2 (Or.inr (Or.inl hx))) y ((mem_wires k y).2 (Or.inr (Or.inl hy)))
    · exact fun x hx y hy => hi x ((mem_wires k x).2 (Or.inr (Or.inr hx))) y ((mem_wires k y).2 (Or.inr (Or.inr hy)))
  obtain ⟨a1, a2⟩ := noPriv_lt h hmain
  have hfits := hH.fits hp.pos (by rw [hH.labels]; exact a1) (by rw [hH.labels]; exact a2) hwf hsmall
  obtain ⟨file, f1, f2, f3, f4, f5⟩ := C37_round_trip data hfits
  have hline : ∀ ρ : Nat → ZMod p, AllHold ts lines ρ ↔ Sat (original smp) ρ := by
    intro ρ
    rw [allHold_iff h hf.built hf.list hf.graph ρ, hf.lines]
    unfold AllHold
    simp only [meaning_mapped]
  have h0 : BMap.get out.map 0 = some 0 := hf.front 0 (by omega)
  have hfile : ∀ σ : Nat → ZMod p, FileSat file σ ↔ Sat out.storage fun x => σ (f x) := by
    intro σ
    rw [fileSat_same hwf f5]
    refine and_congr (by simp [hfdef, h0]) ?_
    rw [hcs]
    constructor
    · intro hall c hc
      exact (holds_rename σ c).1 (hall _ (List.mem_map_of_mem hc))
    · intro hall c hc
      obtain ⟨k, hk, rfl⟩ := List.mem_map.1 hc
      exact (holds_rename σ k).2 (hall k hk)
  refine ⟨file, f1, ?_, ?_, ?_⟩
  · rw [f2, f3]; exact hH.front
  · intro ρ hρ
    rw [hline] at hρ
    obtain ⟨out', g1, g2⟩ := C27_complete hp sched hs fuel hfuel smp hf.valid
    rw [hf.run] at g1; injection g1 with g1; subst g1
    have hsat := g2 ρ hρ
    rw [hfile]
    have hback : ∀ x i, BMap.get out.map x = some i → file.signals.getD (f x) 0 = x := by
      intro x i hx
      have := (hf.inverse x i).1 hx
      simp only [hfdef, hx, Option.getD_some, f3, hsig]
      rw [List.getD_eq_getElem?_getD, this]
      rfl
    refine ⟨?_, fun c hc => ?_⟩
    · simp only [hback 0 0 h0]; exact hsat.1
    · refine (holds_congr fun x hx => ?_).1 (hsat.2 c hc)
      obtain ⟨i, hi, _⟩ := (hf.storage c hc).2 x ((mem_wires c x).2 hx)
      rw [hback x i hi]
  · rintro ⟨ρ0, hρ0⟩ σ hσ
    rw [hline] at hρ0
    obtain ⟨out', g1, g2⟩ := C28_sound_partial hp sched hs fuel hfuel smp hf.valid ⟨ρ0, hρ0.1, fun c hc => hρ0.2 c (by
      unfold original
      simp only [List.mem_append] at hc ⊢
      tauto)⟩
    rw [hf.run] at g1; injection g1 with g1; subst g1
    obtain ⟨ρ, r1, r2, _⟩ := g2 _ ((hfile σ).1 hσ)
    refine ⟨ρ, (hline ρ).2 r1, fun i x hx => ?_⟩
    rw [f3, hsig] at hx
    have hx' := (hf.inverse x i).2 hx
    rw [r2 x (by rw [hx']; rfl)]
    simp [hfdef, hx']

instance (data : R1cs.Data) : Decidable (Small data) :=
  decidable_of_iff (fieldSize data.header.field < 2 ^ 32 ∧ data.header.labels < 2 ^ 32 ∧ data.constraints.length < 2 ^ 32 ∧
    (∀ ua ∈ data.custom.toList, (ua.1.length < 2 ^ 32 ∧
          ∀ g ∈ ua.1, 0 ∉ g.1 ∧ g.2.length < 2 ^ 32 ∧ ∀ x ∈ g.2, 0 ≤ x ∧ x < data.header.field) ∧ ua.2.length < 2 ^ 32 ∧
          ∀ g ∈ ua.2, g.1 < 2 ^ 32 ∧ g.2.length < 2 ^ 32 ∧ ∀ x ∈ g.2, x < 2 ^ 64) ∧ (writeFile data).length < 2 ^ 63) (by
    constructor
    · rintro ⟨h1, h2, h3, h4, h5⟩
      refine ⟨h1, h2, h3, ?_, ?_, h5⟩
      · intro u a hc; exact (h4 (u, a) (by simp [hc])).1
      · intro u a hc; exact (h4 (u, a) (by simp [hc])).2
    · intro h
      refine ⟨h.field, h.labels, h.constraints, ?_, h.total⟩
      rintro ⟨u, a⟩ hc
      simp only [Option.mem_toList, Option.mem_def] at hc
      exact ⟨h.used _ _ hc, h.applied _ _ hc⟩)

example : (match exportSimplified plain enough id demo 13 ⟨10, false, false⟩ true with
      | .ok (_, data) => decide (Small data)
      | _ => false) = true := by decide +kernel

/-- `template T() { signal x; x === 3; x === 4; }`. -/
def clash : Template where
  name := nm "T()"
  parameters := []
  isCustomGate := false
  outputs := .nil
  publicInputs := .nil
  privateInputs := .nil
  intermediates := sig "x"
  ordered := []
  connexions := []
  constraints := [⟨[], [], [(nm "x", 1), ([], 10)]⟩, ⟨[], [], [(nm "x", 1), ([], 9)]⟩]

/-- C60 is false for programs without solutions: the program `x === 3; x === 4` has no solution, the file written for it has. -/
theorem C60_violated : Program 13 [clash] ∧ ∃ lines data file,
    exportSimplified plain enough id [clash] 13 ⟨10, false, false⟩ false = .ok (lines, data) ∧ readFile (writeFile data) = .ok file ∧
      (¬ ∃ ρ : Nat → ZMod 13, AllHold [clash] lines ρ) ∧ ∃ σ : Nat → ZMod 13, FileSat file σ := by
  refine ⟨by decide +kernel, ?_⟩
  have key : (match exportSimplified plain enough id [clash] 13 ⟨10, false, false⟩ false with
      | .ok (lines, data) => (match readFile (writeFile data) with
        | .ok file => decide (meaning lines mainPath (nm "x") = 1 ∧ file.constraints = [])
        | _ => false)
      | _ => false) = true := by decide +kernel
  cases he : exportSimplified plain enough id [clash] 13 ⟨10, false, false⟩ false with
  | error e => rw [he] at key; cases key
  | ok r =>
    obtain ⟨lines, data⟩ := r
    rw [he] at key
    simp only at key
    cases hr : readFile (writeFile data) with
    | error e => rw [hr] at key; cases key
    | ok file =>
      rw [hr] at key
      simp only [decide_eq_true_eq] at key
      refine ⟨lines, data, file, rfl, hr, ?_, fun _ => 1, rfl, by rw [key.2]; simp⟩
      rintro ⟨ρ, h0, h⟩
      have hc := h (clash, mainPath) (by simp [allComponents, components, clash])
      have h1 := hc ⟨[], [], [(nm "x", 1), ([], 10)]⟩ (by simp [clash])
      have h2 := hc ⟨[], [], [(nm "x", 1), ([], 9)]⟩ (by simp [clash])
      have hm0 : meaning lines mainPath [] = 0 := rfl
      simp only [Constraint.Holds, ev_cons, ev_nil, hm0, key.1, h0] at h1 h2
      rw [h1] at h2
      revert h2
      generalize ρ 1 = y
      revert y
      decide

end Verif.Props.Export
