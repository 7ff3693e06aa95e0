import Verif.InspectAll
import Verif.Props.Dag

/-! # C89: the warnings of `--inspect` about unconstrained signals -/

set_option linter.unusedSectionVars false
set_option linter.unusedSimpArgs false
set_option linter.unusedVariables false

namespace Verif.Props.Inspect
open Verif.ModArith (Res Fail)
open Verif.Algebra Verif.Dag Verif.Inspect
open Verif.Props.Dag (nm sig)

variable {p : Nat}

/-! ## Spec -/

/-- The template at a position is not a custom gate, and no earlier one that is not a custom gate has the same name.  The name is the
one of the instance, with the parameters and the tags of the inputs that are signals. -/
def First (ts : List Template) (i : Nat) (t : Template) : Prop :=
  ts[i]? = some t ∧ t.isCustomGate = false ∧ ∀ j < i, ∀ t', ts[j]? = some t' → t'.isCustomGate = false → t'.name ≠ t.name

/-- The underscored signals are among the names a template knows. -/
def UnderscoresKnown (ts : List Template) (us : Nat → List Name) : Prop := ∀ i t, ts[i]? = some t → ∀ s ∈ us i, Known ts t s

/-- Constraints and underscores only use own signals, and inputs and outputs of direct subcomponents. -/
def UsesVisible (ts : List Template) (us : Nat → List Name) : Prop := ∀ i t, First ts i t → AllVisible ts t (us i)

theorem first_fresh {ts : List Template} {i : Nat} {t : Template} : First ts i t ↔ Fresh [] ts i t := by
  unfold First Fresh
  simp

/-! ## Decidable side conditions for the examples -/

instance (ts : List Template) (t : Template) (s : Name) : Decidable (Visible ts t s) := by unfold Visible; infer_instance

instance (t : Template) (s : Name) : Decidable (Appears t s) := by unfold Appears; infer_instance

theorem allVisible_iff (ts : List Template) (t : Template) (us : List Name) : AllVisible ts t us ↔
    (∀ c ∈ t.constraints, ∀ e ∈ terms c, e.2 ≠ 0 → e.1 = [] ∨ Visible ts t e.1) ∧ ∀ s ∈ us, Visible ts t s := by
  unfold AllVisible Appears
  refine and_congr ⟨fun h c hc e he h0 => h e.1 ⟨c, hc, e, he, rfl, h0⟩, ?_⟩ Iff.rfl
  rintro h s ⟨c, hc, e, he, rfl, h0⟩
  exact h c hc e he h0

instance (ts : List Template) (t : Template) (us : List Name) : Decidable (AllVisible ts t us) :=
  decidable_of_iff _ (allVisible_iff ts t us).symm

theorem uses_of {ts : List Template} {us : Nat → List Name} (h : ∀ e ∈ ts.zipIdx, AllVisible ts e.1 (us e.2)) : UsesVisible ts us :=
  fun i t hf => h (t, i) (List.mem_zipIdx_iff_getElem?.2 hf.1)

theorem underscores_of {ts : List Template} {us : Nat → List Name} (h : ∀ e ∈ ts.zipIdx, ∀ s ∈ us e.2, Known ts e.1 s) :
    UnderscoresKnown ts us := fun i t ht => h (t, i) (List.mem_zipIdx_iff_getElem?.2 ht)

/-! ## A program used in the examples -/

/-- `template Sub() { signal input in[2]; signal output o; signal k; o <== in[0] * in[0]; }` -/
def sub : Template where
  name := nm "Sub()"
  parameters := []
  isCustomGate := false
  outputs := sig "o"
  publicInputs := .nil
  privateInputs := sig "in" [2]
  intermediates := sig "k"
  ordered := []
  connexions := []
  constraints := [⟨[(nm "in[0]", 1)], [(nm "in[0]", 1)], [(nm "o", 1)]⟩]

/-- `template Main() { signal input a; signal output b; signal z[4]; P() w; component c = Sub(); c.in[0] <== a; c.in[1] <-- 3; b <== c.o;
_ <== z[2]; w.x === 0 * w.y + a; }` with `bus P() { signal x; signal y; }`. -/
def root : Template where
  name := nm "Main()"
  parameters := []
  isCustomGate := false
  outputs := sig "b"
  publicInputs := sig "a"
  privateInputs := .nil
  intermediates := sig "z" [4] (.bus (nm "w") [] (sig "x" [] (sig "y")) .nil)
  ordered := []
  connexions := [(nm "c", 0)]
  constraints := [⟨[], [], [(nm "c.in[0]", 12), (nm "a", 1)]⟩, ⟨[], [], [(nm "b", 12), (nm "c.o", 1)]⟩,
    ⟨[], [], [(nm "w.x", 12), (nm "w.y", 0), (nm "a", 1)]⟩]

def demo : List Template := [sub, root]

/-- `_ <== z[2]` in `Main`. -/
def marks : Nat → List Name := fun i => if i = 1 then [nm "z[2]"] else []

theorem demo_program : Program 13 demo := by decide +kernel

theorem demo_marks : UnderscoresKnown demo marks := underscores_of (by decide +kernel)

theorem demo_uses : UsesVisible demo marks := uses_of (by decide +kernel)

/-! ## C89 -/

/-- **C89** (for the first of the instances with one name): the analysis ends, warns once about each array of signals with signals that
are in no constraint and not assigned to `_`, says which kind of array it is and how many signals are concerned, and warns about nothing
else.  Missing: later instances with the name of an earlier one, see `C89_visited_violated`. -/
theorem C89_exact_partial {ts : List Template} (h : Program p ts) {us : Nat → List Name} (hu : UnderscoresKnown ts us)
    (hv : UsesVisible ts us) : ∃ rs, inspect ts us = .ok rs ∧ rs.Nodup ∧ ∀ r, r ∈ rs ↔
      ∃ i t, First ts i t ∧ ∃ a ∈ exposed ts t, ∃ ex : List Name,
        (ex.Pairwise (· < ·) ∧ ∀ s, s ∈ ex ↔ s ∈ a.2.2 ∧
          (∀ c ∈ t.constraints, ∀ e ∈ c.a ++ c.b ++ c.c, e.1 = s → e.2 = 0) ∧ s ∉ us i) ∧
        Describes r a.1 t.name a.2.1 ex := by
  obtain ⟨rs, h1, h2, h3⟩ := (inspect_spec h hu).1 fun i t hf => hv i t (first_fresh.2 hf)
  refine ⟨rs, h1, h2, fun r => ?_⟩
  rw [h3]
  have hl : ∀ (t : Template) (u : List Name) (s : Name), Loose t u s ↔
      (∀ c ∈ t.constraints, ∀ e ∈ c.a ++ c.b ++ c.c, e.1 = s → e.2 = 0) ∧ s ∉ u := by
    intro t u s
    unfold Loose Appears terms
    refine and_congr ⟨fun hh c hc e he hs => ?_, ?_⟩ Iff.rfl
    · by_contra h0
      exact hh ⟨c, hc, e, he, hs, h0⟩
    · rintro hh ⟨c, hc, e, he, hs, h0⟩
      exact h0 (hh c hc e he hs)
  simp only [← hl, About, LooseIn, first_fresh]

/-- The demonstration program: `k` and `in[1]` of `Sub`, three of the four elements of `z`, the field `w.y`, and the input `c.in[1]`. -/
example : inspect demo marks = .ok [.single true (nm "Sub()") (nm "in[1]"), .single true (nm "Sub()") (nm "k"),
    .single false (nm "Main()") (nm "c.in[1]"), .single true (nm "Main()") (nm "w.y"),
    .several true (nm "Main()") (nm "z") 3 (nm "z[0]") (nm "z[1]")] := by decide +kernel

example : ∃ rs, inspect demo marks = .ok rs ∧ rs.Nodup :=
  let ⟨rs, h1, h2, _⟩ := C89_exact_partial demo_program demo_marks demo_uses
  ⟨rs, h1, h2⟩

/-- Every signal of the first instances is in one of the arrays the warnings are about, in exactly one, and the array tells whether the
signal is the template's own. -/
theorem C89_arrays {ts : List Template} (h : WellNamed ts) {t : Template} (ht : t ∈ ts) (s : Name) :
    (s ∈ t.wires.names [] ↔ ∃ a ∈ exposed ts t, a.1 = true ∧ s ∈ a.2.2) ∧
    ((∃ c ∈ t.connexions, ∃ k, ts[c.2]? = some k ∧
        ∃ x ∈ k.outputs.names [] ++ k.publicInputs.names [] ++ k.privateInputs.names [], s = c.1 ++ '.' :: x) ↔
      ∃ a ∈ exposed ts t, a.1 = false ∧ s ∈ a.2.2) ∧
    ∀ a ∈ exposed ts t, ∀ a' ∈ exposed ts t, s ∈ a.2.2 → s ∈ a'.2.2 → a = a' := by
  have hports : ∀ k : Template, (ports k).names [] = k.outputs.names [] ++ k.publicInputs.names [] ++ k.privateInputs.names [] := by
    intro k
    simp [ports, names_append]
  refine ⟨?_, ?_, fun a ha a' ha' hs hs' => ?_⟩
  · rw [← locNames_eq]
    constructor
    · intro hs
      obtain ⟨a, ha, hin⟩ := exposed_cover.1 (Or.inl hs : Visible ts t s)
      exact ⟨a, ha, (exposed_kind h ht ha hin).2 hs, hin⟩
    · rintro ⟨a, ha, hk, hin⟩
      exact (exposed_kind h ht ha hin).1 hk
  · constructor
    · rintro ⟨c, hc, k, hk, x, hx, rfl⟩
      obtain ⟨a, ha, hin⟩ := exposed_cover.1 (Or.inr ⟨c, hc, x, by simp only [portsAt, hk, Option.map_some, Option.getD_some, hports]; exact hx,
        rfl⟩ : Visible ts t (c.1 ++ '.' :: x))
      refine ⟨a, ha, ?_, hin⟩
      rw [Bool.eq_false_iff]
      intro hkind
      have hb := base_local (h.proper t ht) ((exposed_kind h ht ha hin).1 hkind)
      rw [base_child] at hb
      exact (h.label t ht c hc).2 hb
    · rintro ⟨a, ha, hk, hin⟩
      rcases exposed_cover.2 ⟨a, ha, hin⟩ with hl | ⟨c, hc, x, hx, rfl⟩
      · have := (exposed_kind h ht ha hin).2 hl
        rw [hk] at this
        simp at this
      · unfold portsAt at hx
        cases hk' : ts[c.2]? with
        | none => simp [hk'] at hx
        | some k =>
          simp only [hk', Option.map_some, Option.getD_some, hports] at hx
          exact ⟨c, hc, k, hk', x, hx, rfl⟩
  · exact exposed_inj h ht ha ha' ((exposed_stem h ht ha hs).symm.trans (exposed_stem h ht ha' hs'))

example : exposed demo root = [(true, nm "b", [nm "b"]), (true, nm "a", [nm "a"]), (true, nm "z", [nm "z[0]", nm "z[1]", nm "z[2]", nm "z[3]"]),
    (true, nm "w.x", [nm "w.x"]), (true, nm "w.y", [nm "w.y"]), (false, nm "c.o", [nm "c.o"]),
    (false, nm "c.in", [nm "c.in[0]", nm "c.in[1]"])] := by decide +kernel

/-- There are no warnings exactly when every signal of every first instance, and every input and output of its subcomponents, is in a
constraint with a coefficient that is not zero or assigned to `_`. -/
theorem C89_silent_partial {ts : List Template} (h : Program p ts) {us : Nat → List Name} (hu : UnderscoresKnown ts us)
    (hv : UsesVisible ts us) : inspect ts us = .ok [] ↔ ∀ i t, First ts i t → ∀ s, Visible ts t s →
      (∃ c ∈ t.constraints, ∃ e ∈ c.a ++ c.b ++ c.c, e.1 = s ∧ e.2 ≠ 0) ∨ s ∈ us i := by
  classical
  obtain ⟨rs, h1, h2, h3⟩ := (inspect_spec h hu).1 fun i t hf => hv i t (first_fresh.2 hf)
  rw [h1]
  simp only [Except.ok.injEq]
  constructor
  · rintro rfl i t hf s hs
    by_contra hno
    rw [not_or] at hno
    have hmem := List.mem_of_getElem? hf.1
    obtain ⟨a, ha, hin⟩ := exposed_cover.1 hs
    -- the loose signals of the array, sorted
    let ex := ((a.2.2.filter fun x => decide (Loose t (us i) x)).dedup.mergeSort fun x y => nameLe x y)
    have hmemex : ∀ x, x ∈ ex ↔ x ∈ a.2.2 ∧ Loose t (us i) x := by
      intro x
      simp only [ex, List.mem_mergeSort, List.mem_dedup, List.mem_filter, decide_eq_true_eq]
    have hsort : ex.Pairwise (· < ·) := by
      have s1 := List.pairwise_mergeSort (le := fun x y : Name => nameLe x y) (fun a b c => nameLe_trans a b c) (fun a b => nameLe_total a b)
        (a.2.2.filter fun x => decide (Loose t (us i) x)).dedup
      have s2 : ex.Nodup := (List.mergeSort_perm _ _).nodup_iff.2 (List.nodup_dedup _)
      exact (s1.and s2).imp fun hab => nameLe_lt _ _ hab.1 hab.2
    have hne : ex ≠ [] := List.ne_nil_of_mem ((hmemex s).2 ⟨hin, hno.1, hno.2⟩)
    obtain ⟨r, hr⟩ := describes_some (k := a.1) (tm := t.name) (a := a.2.1) hne
    have := (h3 r).2 ⟨i, t, first_fresh.1 hf, a, ha, ex, ⟨hsort, hmemex⟩, hr⟩
    simp at this
  · intro hall
    rw [List.eq_nil_iff_forall_not_mem]
    intro r hr
    obtain ⟨i, t, hf, a, ha, ex, hl, hd⟩ := (h3 r).1 hr
    obtain ⟨s, l, he⟩ := List.exists_cons_of_ne_nil (describes_ne hd)
    have hs := (hl.2 s).1 (by rw [he]; simp)
    rcases hall i t (first_fresh.2 hf) s (exposed_cover.2 ⟨a, ha, hs.1⟩) with hap | hap
    · exact hs.2.1 hap
    · exact hs.2.2 hap

/-- `Sub` and `Main` with the missing signals assigned to `_` give no warnings. -/
def allMarks : Nat → List Name := fun i =>
  if i = 1 then [nm "z[0]", nm "z[1]", nm "z[2]", nm "z[3]", nm "w.y", nm "c.in[1]"] else [nm "in[1]", nm "k"]

example : inspect demo allMarks = .ok [] := by decide +kernel

/-- The analysis aborts exactly when a first instance uses a signal that is not its own nor an input or output of a subcomponent. -/
theorem C89_total {ts : List Template} (h : Program p ts) {us : Nat → List Name} (hu : UnderscoresKnown ts us) :
    (∃ rs, inspect ts us = .ok rs) ↔ ∀ i t, First ts i t →
      (∀ c ∈ t.constraints, ∀ e ∈ c.a ++ c.b ++ c.c, e.2 ≠ 0 → e.1 = [] ∨ Visible ts t e.1) ∧ ∀ s ∈ us i, Visible ts t s := by
  have hs := inspect_spec h hu
  have hiff : (∀ i t, First ts i t → (∀ c ∈ t.constraints, ∀ e ∈ c.a ++ c.b ++ c.c, e.2 ≠ 0 → e.1 = [] ∨ Visible ts t e.1) ∧
      ∀ s ∈ us i, Visible ts t s) ↔ ∀ i t, Fresh [] ts i t → AllVisible ts t (us i) := by
    simp only [first_fresh, allVisible_iff]
    rfl
  rw [hiff]
  constructor
  · rintro ⟨rs, hr⟩
    by_contra hno
    rw [hs.2 hno] at hr
    simp at hr
  · intro hh
    obtain ⟨rs, h1, _⟩ := hs.1 hh
    exact ⟨rs, h1⟩

/-- A program whose main component puts an intermediate signal of its subcomponent in a constraint. -/
def peeking : List Template := [sub, { root with constraints := [⟨[], [], [(nm "c.k", 1), (nm "a", 12)]⟩] }]

example : Program 13 peeking ∧ inspect peeking marks = .error .panic := by decide +kernel

/-- An instance of `template A() { input P() q; signal output o; signal t; o <== q.x; if (q.x.max == 1) { t === q.x; } }` with
`bus P() { signal {max} x; }`, where the tag of the field of the bus has the value 1; the name does not show such tags. -/
def low : Template where
  name := nm "A()"
  parameters := []
  isCustomGate := false
  outputs := sig "o"
  publicInputs := .nil
  privateInputs := .bus (nm "q") [] (sig "x") .nil
  intermediates := sig "t"
  ordered := []
  connexions := []
  constraints := [⟨[], [], [(nm "o", 12), (nm "q.x", 1)]⟩, ⟨[], [], [(nm "t", 12), (nm "q.x", 1)]⟩]

/-- Another instance of the same template, where the tag has the value 2. -/
def high : Template := { low with constraints := [⟨[], [], [(nm "o", 12), (nm "q.x", 1)]⟩] }

/-- The main component with both instances. -/
def both : Template where
  name := nm "Main()"
  parameters := []
  isCustomGate := false
  outputs := sig "b"
  publicInputs := sig "a"
  privateInputs := .nil
  intermediates := .nil
  ordered := []
  connexions := [(nm "l", 0), (nm "h", 1)]
  constraints := [⟨[], [], [(nm "l.q.x", 12), (nm "a", 1)]⟩, ⟨[], [], [(nm "h.q.x", 12), (nm "a", 1)]⟩,
    ⟨[], [], [(nm "b", 12), (nm "l.o", 1), (nm "h.o", 1)]⟩]

/-- The full statement of C89 fails: two instances can share a name, the second one is not looked at.  Its signal `t` is in no
constraint and there is no warning; in the other order of the instances there is one. -/
theorem C89_visited_violated : Program 13 [low, high, both] ∧ nm "t" ∈ locNames high ∧ ¬ Appears high (nm "t") ∧
    inspect [low, high, both] (fun _ => []) = .ok [] ∧
    inspect [high, low, both] (fun _ => []) = .ok [.single true (nm "A()") (nm "t")] := by
  decide +kernel

end Verif.Props.Inspect
