import Verif.JsonTopLemmas
import Verif.Props.Inputs
import Mathlib.Data.Nat.Digits.Lemmas

/-!
C83: the JSON file of inputs means the same to the two witness programs, and a file written after the declarations of the inputs gives
each input signal its value.
-/

namespace Verif.Props.JsonIn

open Verif.JsonIn Verif.Inputs Verif.HashMap Verif.Props.HashMap Verif.Props.Inputs

set_option linter.unusedSimpArgs false
set_option linter.unusedVariables false

/-- A file of inputs: an object whose keys, there and further down, are identifiers, distinct within each object.  (The keys of files for
programs are the names of signals and of fields of buses.) -/
def FileOk (o : JO) : Prop := keysOkO KeyOk o ∧ (o.toList.map Prod.fst).Nodup ∧ distinctO o

private theorem cpp_some {q : Int} {o : JO} (h : FileOk o) {items : List (String × List Int)} :
    (cppInputs q (.obj o) = some items → ∃ x, List.Forall₂ (fun e i => e.1 = i.1 ∧
      scVals (fun s => (cppNum s).map (· % q)) (flat e.2) = some i.2) (named (leavesO [] o)) x ∧ items.Perm x) := by
  intro hc
  unfold cppInputs at hc
  cases hok : cppOkO o with
  | false => rw [(cpp_file h.1 h.2.1 h.2.2).1 hok] at hc; cases hc
  | true =>
    obtain ⟨m, hm, hp⟩ := (cpp_file h.1 h.2.1 h.2.2).2 hok
    rw [hm] at hc
    have hf := (cppItems_iff q m items).1 hc
    obtain ⟨x, h1, h2⟩ := List.perm_comp_forall₂ hp.symm hf
    refine ⟨x, ?_, h2.symm⟩
    exact h1.imp fun e i hi => by rw [← cppVals_flat]; exact hi

private theorem js_some {q : Int} {o : JO} (h : FileOk o) (hp : "__proto__" ∉ o.toList.map Prod.fst) {items : List (String × List Int)} :
    (jsInputs q (.obj o) = some items → List.Forall₂ (fun e i => e.1 = i.1 ∧
      scVals (fun s => (jsNum s).map (jsNormal q)) (flat e.2) = some i.2) (named (leavesO [] o)) items) := by
  intro hc
  unfold jsInputs at hc
  cases hok : jsOkO o with
  | false => rw [(js_file h.1 h.2.1 h.2.2 hp).1 hok] at hc; cases hc
  | true =>
    obtain ⟨m, hm, hl⟩ := (js_file h.1 h.2.1 h.2.2 hp).2 hok
    rw [hm] at hc
    have hf := (jsItems_iff q m items).1 hc
    rw [hl] at hf
    exact hf.imp fun e i hi => by rw [← jsVals_flat]; exact hi

private theorem forall₂_eq {α : Type} {P Q : α → (String × List Int) → Prop}
    (h : ∀ a x y, P a x → Q a y → x = y) : ∀ {l : List α} {x y : List (String × List Int)}, List.Forall₂ P l x → List.Forall₂ Q l y → x = y
  | [], _, _, .nil, .nil => rfl
  | _ :: _, _, _, .cons a as, .cons b bs => by rw [h _ _ _ a b, forall₂_eq h as bs]

/-- **The two programs read a file alike**: where both accept a file, they load the same values under the same names.  (They go through
the names in different orders.) -/
theorem C83_same {q : Int} (hq : 0 < q) {o : JO} (h : FileOk o) (hp : "__proto__" ∉ o.toList.map Prod.fst)
    {a b : List (String × List Int)} (ha : cppInputs q (.obj o) = some a) (hb : jsInputs q (.obj o) = some b) : a.Perm b := by
  obtain ⟨x, hx, hax⟩ := cpp_some h ha
  have hy := js_some h hp hb
  have : x = b := by
    refine forall₂_eq ?_ hx hy
    rintro e ⟨n, v⟩ ⟨n', v'⟩ ⟨h1, h2⟩ ⟨h3, h4⟩
    simp only at h1 h2 h3 h4
    rw [← h1, ← h3, Prod.mk.injEq]
    refine ⟨rfl, scVals_rel ?_ _ h2 h4⟩
    intro s a b ha hb
    simp only [Option.map_eq_some_iff] at ha hb
    obtain ⟨z, hz, rfl⟩ := ha
    obtain ⟨z', hz', rfl⟩ := hb
    rw [num_same hz hz', jsNormal_eq hq]
  rw [← this]
  exact hax

/-! ### Files written after the declarations -/

section
variable {buses : List (List Field)} {fm : List (List FData)} {F : Nat} {ds : List Decl} {base total : Nat}

/-- The inputs of the main component: their buses and sizes are known, and they follow each other from `base` on. -/
structure InputsOk (buses : List (List Field)) (fm : List (List FData)) (F : Nat) (ds : List Decl) (base total : Nat) : Prop where
  map : fieldMap buses F = .ok fm
  identifiers : BusesOk buses
  fields : ∀ fields ∈ buses, ∀ f ∈ fields, f.name ≠ ""
  decls : ∀ d ∈ ds, DeclOk buses F d
  named : ∀ d ∈ ds, d.name ≠ ""
  names : (ds.map Decl.name).Nodup
  signals : ∀ d ∈ ds, d.bus = none → d.size = prod d.dims
  cover : Covers base (ds.map fun d => (d.start, d.size)) (base + total)

/-- The file `o` gives the inputs in the shape of their declarations, with the text `val s` for signal `s`: an array for each dimension,
row by row, an object for each bus, the entries of every object in any order (`Verif.JsonIn.Arr`). -/
def Follows (buses : List (List Field)) (ds : List Decl) (base : Nat) (val : Nat → Sc) (o : JO) : Prop :=
  ∃ n es, Fields buses val (ds.map fun d => ⟨d.name, d.dims, d.bus⟩) base n es ∧ o.toList.Perm es

variable (hi : InputsOk buses fm F ds base total) {val : Nat → Sc} {o : JO} (ho : Follows buses ds base val o)
include hi ho

private theorem named_buses : Named buses := fun fields hf => ⟨(hi.identifiers fields hf).1, fun f h => ⟨hi.fields fields hf f h, (hi.identifiers fields hf).2 f h⟩⟩

private theorem entries : (∀ e ∈ o.toList, KeyOk e.1 ∧ ∃ bus dims s n, Arr buses val bus dims s n e.2) ∧
    (o.toList.map Prod.fst).Nodup ∧ ∀ k ∈ o.toList.map Prod.fst, k ∈ ds.map Decl.name := by
  obtain ⟨n, es, hf, hp⟩ := ho
  obtain ⟨h1, h2⟩ := fields_mem hf
  have hm : (ds.map fun d => (⟨d.name, d.dims, d.bus⟩ : Field)).map Field.name = ds.map Decl.name := by simp [Function.comp_def]
  rw [hm] at h1
  refine ⟨?_, (hp.map _).nodup_iff.2 (h1 ▸ hi.names), fun k hk => h1 ▸ (hp.map Prod.fst).mem_iff.1 hk⟩
  intro e he
  obtain ⟨f, hfm, e1, s, m, e2⟩ := h2 e (hp.mem_iff.1 he)
  obtain ⟨d, hd, rfl⟩ := List.mem_map.1 hfm
  exact ⟨e1 ▸ ⟨hi.named d hd, (hi.decls d hd).1⟩, _, _, s, m, e2⟩

private theorem fileOk : FileOk o := by
  obtain ⟨h1, h2, _⟩ := entries hi ho
  have := keys_entries (named_buses hi ho) o h1
  exact ⟨this.1, h2, this.2⟩

private theorem agree : ∃ l, withQualifiers fm F ds = .ok l ∧ ((leavesO [] o).map leafTexts).Perm (l.map (nameTexts val)) := by
  obtain ⟨n, es, hf, hp⟩ := ho
  obtain ⟨l, hl, h⟩ := decls_agree hi.map ds hi.decls hi.signals base _ n es hi.cover hf
  refine ⟨l, hl, List.Perm.trans ?_ h⟩
  rw [leavesO_flatMap]
  exact (hp.flatMap_right _).map _

omit hi ho in
private theorem texts_vals {f : Sc → Option Int} {z : Nat → Int} (hf : ∀ s, f (val s) = some (z s)) (s : Nat) : ∀ n,
    scVals f (texts val s n) = some ((List.range' s n).map z) := by
  intro n
  induction n generalizing s with
  | zero => rfl
  | succ n ih =>
    have := ih (s + 1)
    simp only [texts, List.range'_succ, List.map_cons, scVals, hf] at this ⊢
    rw [this]
    rfl

omit hi ho in
private theorem items_of {f : Sc → Option Int} {z : Nat → Int} (hf : ∀ s, f (val s) = some (z s)) {lv : List (List Seg × J)} {l : List Info}
    (h : (lv.map leafTexts).Perm (l.map (nameTexts val))) :
    ∃ items, List.Forall₂ (fun e i => e.1 = i.1 ∧ scVals f (flat e.2) = some i.2) (named lv) items ∧
      items.Perm (l.map fun i => (i.name, (List.range' i.start i.size).map z)) := by
  have hr : List.Forall₂ (fun (a : String × List J) (i : String × List Int) => a.1 = i.1 ∧ scVals f a.2 = some i.2) (l.map (nameTexts val))
      (l.map fun i => (i.name, (List.range' i.start i.size).map z)) := by
    rw [List.forall₂_map_left_iff, List.forall₂_map_right_iff, List.forall₂_same]
    intro i _
    exact ⟨rfl, texts_vals hf _ _⟩
  obtain ⟨x, h1, h2⟩ := List.perm_comp_forall₂ h hr
  refine ⟨x, ?_, h2⟩
  rw [List.forall₂_map_left_iff] at h1
  unfold named
  rw [List.forall₂_map_left_iff]
  exact h1

/-- **The C++ program on such a file**, if every value is a string or an integer of 64 bits that it reads as `z s`: the file is accepted,
and the elementary names of the compiler's list get the values of their signals, in order. -/
theorem C83_cpp {q : Int} {z : Nat → Int} (hk : ∀ s, kindSc (val s) = .integer) (hz : ∀ s, cppNum (val s) = some (z s)) :
    ∃ l items, withQualifiers fm F ds = .ok l ∧ cppInputs q (.obj o) = some items ∧
      items.Perm (l.map fun i => (i.name, (List.range' i.start i.size).map fun s => z s % q)) := by
  obtain ⟨l, hl, ha⟩ := agree hi ho
  have hfo := fileOk hi ho
  obtain ⟨m, hm, hp⟩ := (cpp_file hfo.1 hfo.2.1 hfo.2.2).2
    (cppOk_entries hk o fun e he => ((entries hi ho).1 e he).2)
  obtain ⟨items, h1, h2⟩ := items_of (f := fun s => (cppNum s).map (· % q)) (z := fun s => z s % q) (fun s => by simp [hz]) ha
  obtain ⟨x, h3, h4⟩ := List.perm_comp_forall₂ hp h1
  refine ⟨l, x, hl, ?_, h4.trans h2⟩
  unfold cppInputs
  rw [hm]
  refine (cppItems_iff q m x).2 (h3.imp fun e i h => ?_)
  rw [cppVals_flat]
  exact h

/-- **The JavaScript program on such a file**, if it reads every value as `z s`, and the values of each elementary name are of one type:
the same. -/
theorem C83_js {q : Int} (hq : 0 < q) {z : Nat → Int} (hn : "__proto__" ∉ ds.map Decl.name) (hz : ∀ s, jsNum (val s) = some (z s))
    (hu : ∀ l, withQualifiers fm F ds = .ok l → ∀ i ∈ l, ∀ s ∈ List.range' i.start i.size, ∀ t ∈ List.range' i.start i.size,
      typeofSc (val s) = typeofSc (val t)) :
    ∃ l items, withQualifiers fm F ds = .ok l ∧ jsInputs q (.obj o) = some items ∧
      items.Perm (l.map fun i => (i.name, (List.range' i.start i.size).map fun s => z s % q)) := by
  obtain ⟨l, hl, ha⟩ := agree hi ho
  have hfo := fileOk hi ho
  have hv : ∀ s, typeofSc (val s) ≠ .object := by
    intro s h
    have := hz s
    cases hs : val s <;> rw [hs] at h this <;> simp [typeofSc, jsNum] at h this
  obtain ⟨m, hm, hp⟩ := (js_file hfo.1 hfo.2.1 hfo.2.2 fun h => hn ((entries hi ho).2.2 _ h)).2
    (jsOk_entries hv o [] (fun e he => ((entries hi ho).1 e he).2) (by
      intro e he a hea b heb
      obtain ⟨i, him, h1⟩ := List.mem_map.1 (ha.mem_iff.1 (List.mem_map_of_mem (f := leafTexts) he))
      have h2 : flat e.2 = texts val i.start i.size := (Prod.mk.inj h1).2.symm
      rw [h2] at hea heb
      obtain ⟨s, hs, rfl⟩ := List.mem_map.1 hea
      obtain ⟨t, ht, rfl⟩ := List.mem_map.1 heb
      exact hu l hl i him s hs t ht))
  obtain ⟨items, h1, h2⟩ := items_of (f := fun s => (jsNum s).map (jsNormal q)) (z := fun s => z s % q)
    (fun s => by simp [hz, jsNormal_eq hq]) ha
  refine ⟨l, items, hl, ?_, h2⟩
  unfold jsInputs
  rw [hm]
  refine (jsItems_iff q m items).2 ?_
  rw [hp]
  refine h1.imp fun e i h => ?_
  rw [jsVals_flat]
  exact h

/-- **From the file to the signals**: the C++ program, with the table of names the compiler wrote, ends the loading with every input signal
holding the residue of the number its text stands for, and starts the calculation once, then. -/
theorem C83_load {q : Int} {z : Nat → Int} (hk : ∀ s, kindSc (val s) = .integer) (hz : ∀ s, cppNum (val s) = some (z s))
    (hpos : 0 < total) {H : String → Nat} {infos : List Info} (hm : mainInputs fm F ds = .ok infos) {size fuel : Nat} {t : List Slot}
    (hs : Starts infos) (hd : (infos.map fun i => H i.name).Nodup) (hf : size ≤ fuel) (hg : generate H fuel infos size = .ok t)
    (mem0 : Nat → Int) :
    ∃ items st, cppInputs q (.obj o) = some items ∧ loadJson H t base total mem0 items = .ok st ∧ st.runs = [st.mem] ∧
      (∀ s, base ≤ s → s < base + total → st.mem s = z s % q) ∧ ∀ s, (s < base ∨ base + total ≤ s) → st.mem s = mem0 s := by
  obtain ⟨l, items, hl, h1, h2⟩ := C83_cpp hi ho (q := q) hk hz
  obtain ⟨l', hl', hc, _⟩ := withQualifiers_spec hi.map hi.identifiers ds hi.decls hi.names
  rw [hl] at hl'
  cases hl'
  have hcov := hc _ _ hi.cover
  have hsub : ∀ i ∈ l, i ∈ infos := by
    unfold mainInputs at hm
    rw [hl] at hm
    simp only at hm
    split at hm
    · cases hm
    · simp only [Except.ok.injEq] at hm
      intro i him
      rw [← hm]
      simp [him]
  have hr : List.Forall₂ (fun (a : String × List Int) (i : Info) => a = (i.name, (List.range' i.start i.size).map fun s => z s % q))
      (l.map fun i => (i.name, (List.range' i.start i.size).map fun s => z s % q)) l := by
    rw [List.forall₂_map_left_iff, List.forall₂_same]
    intro i _
    rfl
  obtain ⟨x, h3, h4⟩ := List.perm_comp_forall₂ h2 hr
  have hx : items = (x.map fun i => (i, (List.range' i.start i.size).map fun s => z s % q)).map fun r => (r.1.name, r.2) := by
    rw [List.map_map, ← List.forall₂_eq_eq_eq, List.forall₂_map_right_iff]
    exact h3
  obtain ⟨st, g1, _, g2, g3, g4⟩ := C63_load hs hd hf hg hpos mem0
    (given := x.map fun i => (i, (List.range' i.start i.size).map fun s => z s % q))
    (cov := l.map fun i => (i.start, i.size)) (by
      intro r hr
      obtain ⟨i, hix, rfl⟩ := List.mem_map.1 hr
      exact ⟨hsub i (h4.mem_iff.1 hix), by simp⟩) (by
      rw [List.map_map]
      exact h4.map fun i => (i.start, i.size)) hcov
  rw [← hx] at g1
  refine ⟨items, st, h1, g1, g2, ?_, g4⟩
  intro s b1 b2
  obtain ⟨n, ⟨r, hr, hk1, hk2⟩, _⟩ := hcov.unique s b1 b2
  rw [List.getElem?_map, Option.map_eq_some_iff] at hr
  obtain ⟨i, hin, rfl⟩ := hr
  simp only at hk1 hk2
  have := g3 (i, (List.range' i.start i.size).map fun s => z s % q)
    (List.mem_map.2 ⟨i, h4.mem_iff.2 (List.mem_of_getElem? hin), rfl⟩) (s - i.start) (z s % q) (by
      simp only [List.getElem?_map]
      rw [List.getElem?_range' (by omega)]
      simp only [Option.map_some, Nat.one_mul]
      rw [show i.start + (s - i.start) = s by omega])
  simp only at this
  rwa [show i.start + (s - i.start) = s by omega] at this

end

/-! ### Values -/

theorem digitsVal_ofDigits (l : List Char) (h : ∀ c ∈ l, '0' ≤ c ∧ c ≤ '9') :
    digitsVal 10 l = Nat.ofDigits 10 (l.reverse.map fun c => c.toNat - 48) := by
  have e : l.map charVal = l.map fun c => c.toNat - 48 := List.map_congr_left fun c hc => by unfold charVal; rw [if_pos (h c hc)]
  have f : ∀ (l : List Char) (a : Nat), l.foldl (fun r c => 10 * r + charVal c) a = (l.map charVal).foldl (fun r d => 10 * r + d) a := by
    intro l
    induction l with
    | nil => intro a; rfl
    | cons c l ih => intro a; exact ih _
  have g : ∀ (m : List Nat) (a : Nat), m.foldl (fun r d => 10 * r + d) a = 10 ^ m.length * a + Nat.ofDigits 10 m.reverse := by
    intro m
    induction m with
    | nil => intro a; simp
    | cons d m ih =>
      intro a
      rw [List.foldl_cons, ih, List.reverse_cons, Nat.ofDigits_append, List.length_reverse, List.length_cons, pow_succ]
      simp only [Nat.ofDigits_singleton]
      ring
  unfold digitsVal
  rw [f, g, e, List.map_reverse]; simp

/-- A string of decimal digits, the highest first, is read exactly by both programs. -/
theorem C83_strings {s : String} (hne : s ≠ "") (h : ∀ c ∈ s.toList, '0' ≤ c ∧ c ≤ '9') :
    kindSc (.str s) = .integer ∧ cppNum (.str s) = some ((Nat.ofDigits 10 (s.toList.reverse.map fun c => c.toNat - 48) : Nat) : Int) ∧
    jsNum (.str s) = some ((Nat.ofDigits 10 (s.toList.reverse.map fun c => c.toNat - 48) : Nat) : Int) := by
  rw [← digitsVal_ofDigits _ h]
  exact ⟨rfl, dec_str hne h⟩

/-- An integer is read exactly by both programs up to 2^53. -/
theorem C83_numbers {z : Int} (h : z.natAbs ≤ 2 ^ 53) :
    kindSc (.int z) = .integer ∧ cppNum (.int z) = some z ∧ jsNum (.int z) = some z := by
  have := near_exact h
  refine ⟨?_, this, this⟩
  show (if -2 ^ 63 ≤ z ∧ z < 2 ^ 64 then Kind.integer else .float) = _
  rw [if_pos (by omega)]

/-! ### A case

`bus P { signal x; signal y; }`, inputs `signal input a[2][2]; input P r[2];`; the entries of the objects in another order than declared,
numbers and strings. -/

def exBuses : List (List Field) := [[⟨"x", [], none⟩, ⟨"y", [], none⟩]]

def exMap : List (List FData) := [[⟨"x", [], 1, 0, none⟩, ⟨"y", [], 1, 1, none⟩]]

def exDecls : List Decl := [⟨"a", [2, 2], 1, 4, none⟩, ⟨"r", [2], 5, 4, some 0⟩]

/-- Texts: strings for `a`, numbers for `r`, one of them negative. -/
def exVal (s : Nat) : Sc := if s = 3 then .str "0x1F" else if s < 5 then .str "12345678901234567890" else if s = 6 then .int (-1) else .int 7

def exRow (s : Nat) : J := .arr (.cons (.sc (exVal s)) (.cons (.sc (exVal (s + 1))) .nil))

def exBus (s : Nat) : J := .obj (.cons "y" (.sc (exVal (s + 1))) (.cons "x" (.sc (exVal s)) .nil))

def exFile : JO := .cons "r" (.arr (.cons (exBus 5) (.cons (exBus 7) .nil))) (.cons "a" (.arr (.cons (exRow 1) (.cons (exRow 3) .nil))) .nil)

theorem ex_follows : Follows exBuses exDecls 1 exVal exFile := by
  have hrow : ∀ s, Arr exBuses exVal none [2] s 2 (exRow s) := fun s =>
    .arr (.cons (m := 1) (n := 1) (.elem (.signal s)) (.cons (m := 1) (n := 0) (.elem (.signal (s + 1))) .nil))
  have hbus : ∀ s, Elem exBuses exVal (some 0) s 2 (exBus s) := fun s =>
    .bus (fields := [⟨"x", [], none⟩, ⟨"y", [], none⟩]) (es := [("x", .sc (exVal s)), ("y", .sc (exVal (s + 1)))]) rfl
      (.cons (f := ⟨"x", [], none⟩) (m := 1) (n := 1) (.elem (.signal s))
        (.cons (f := ⟨"y", [], none⟩) (m := 1) (n := 0) (.elem (.signal (s + 1))) .nil)) (List.Perm.swap _ _ _)
  refine ⟨8, [("a", .arr (.cons (exRow 1) (.cons (exRow 3) .nil))), ("r", .arr (.cons (exBus 5) (.cons (exBus 7) .nil)))], ?_, List.Perm.swap _ _ _⟩
  exact .cons (f := ⟨"a", [2, 2], none⟩) (m := 4) (n := 4) (.arr (.cons (m := 2) (n := 2) (hrow 1) (.cons (m := 2) (n := 0) (hrow 3) .nil)))
    (.cons (f := ⟨"r", [2], some 0⟩) (m := 4) (n := 0) (.arr (.cons (m := 2) (n := 2) (.elem (hbus 5)) (.cons (m := 2) (n := 0) (.elem (hbus 7)) .nil))) .nil)

theorem ex_inputs : InputsOk exBuses exMap 1 exDecls 1 8 where
  map := by decide +kernel
  identifiers := by unfold BusesOk; decide +kernel
  fields := by decide
  decls := by
    intro d hd
    simp only [exDecls, List.mem_cons, List.not_mem_nil, or_false] at hd
    rcases hd with rfl | rfl
    · exact ⟨by decide +kernel, by intro b h; cases h⟩
    · refine ⟨by decide +kernel, ?_⟩
      intro b h
      cases h
      exact ⟨by decide, [⟨"x", [], 1, 0, none⟩, ⟨"y", [], 1, 1, none⟩], 2, by decide +kernel, by decide⟩
  named := by decide
  names := by decide
  signals := by decide
  cover := ⟨rfl, rfl, rfl⟩

def exInfos : List Info :=
  [⟨"a", 1, 4⟩, ⟨"r[0].x", 5, 1⟩, ⟨"r[0].y", 6, 1⟩, ⟨"r[1].x", 7, 1⟩, ⟨"r[1].y", 8, 1⟩, ⟨"r", 5, 4⟩]

def exZ (s : Nat) : Int := if s = 3 then 31 else if s < 5 then 12345678901234567890 else if s = 6 then -1 else 7

/-- The hypotheses of `C83_cpp`, `C83_js` and `C83_load`. -/
example : mainInputs exMap 1 exDecls = .ok exInfos ∧ Starts exInfos ∧ (exInfos.map fun i => hasher i.name).Nodup ∧
    (∀ s, kindSc (exVal s) = .integer) ∧ (∀ s, cppNum (exVal s) = some (exZ s)) ∧ (∀ s, jsNum (exVal s) = some (exZ s)) ∧
    ("__proto__" ∉ exDecls.map Decl.name) ∧
    (∀ l, withQualifiers exMap 1 exDecls = .ok l → ∀ i ∈ l, ∀ s ∈ List.range' i.start i.size, ∀ t ∈ List.range' i.start i.size,
      typeofSc (exVal s) = typeofSc (exVal t)) := by
  refine ⟨by decide +kernel, by decide, by decide +kernel, ?_, ?_, ?_, by decide, ?_⟩
  · intro s; unfold exVal; split
    · rfl
    · split
      · rfl
      · split <;> decide +kernel
  · intro s; unfold exVal exZ; split
    · decide +kernel
    · split
      · decide +kernel
      · split <;> decide +kernel
  · intro s; unfold exVal exZ; split
    · decide +kernel
    · split
      · decide +kernel
      · split <;> decide +kernel
  · intro l hl
    have : withQualifiers exMap 1 exDecls = .ok (exInfos.take 5) := by decide +kernel
    rw [this, Except.ok.injEq] at hl
    subst hl
    decide +kernel

/-- What the two programs load for it. -/
example : cppInputs 97 (.obj exFile) = some [("a", [3, 3, 31, 3]), ("r[0].x", [7]), ("r[0].y", [96]), ("r[1].x", [7]), ("r[1].y", [7])] ∧
    jsInputs 97 (.obj exFile) = some [("r[0].y", [96]), ("r[0].x", [7]), ("r[1].y", [7]), ("r[1].x", [7]), ("a", [3, 3, 31, 3])] := by
  decide +kernel

example : FileOk exFile ∧ "__proto__" ∉ exFile.toList.map Prod.fst := ⟨fileOk ex_inputs ex_follows, by decide⟩

/-! ### Where the programs differ, or do not read what is written -/

/-- A file for one signal `a`. -/
def one (j : J) : J := .obj (.cons "a" j .nil)

def list (l : List J) : J := .arr (l.foldr JL.cons .nil)

/-- The order of the curve bn254. -/
def bn254 : Int := 21888242871839275222246405745257275088548364400416034343698204186575808495617

/-- A number beyond 2^53 is read as another number, by both programs, without a message. -/
theorem C83_double_violated : cppInputs bn254 (one (.sc (.int (2 ^ 53 + 1)))) = some [("a", [2 ^ 53])] ∧
    jsInputs bn254 (one (.sc (.int (2 ^ 53 + 1)))) = some [("a", [2 ^ 53])] := by decide +kernel

/-- Files one program accepts and the other refuses: numbers and strings in one array; a negative number in a string; `true`; a fraction,
which the C++ program rounds; an empty row before others; a large number beside a small one; a prefix without digits. -/
theorem C83_accepted_violated :
    (cppInputs bn254 (one (list [.sc (.int 1), .sc (.str "2")])) = some [("a", [1, 2])] ∧
      jsInputs bn254 (one (list [.sc (.int 1), .sc (.str "2")])) = none) ∧
    (cppInputs bn254 (one (.sc (.str "-1"))) = none ∧ jsInputs bn254 (one (.sc (.str "-1"))) = some [("a", [bn254 - 1])]) ∧
    (cppInputs bn254 (one (.sc (.bool true))) = none ∧ jsInputs bn254 (one (.sc (.bool true))) = some [("a", [1])]) ∧
    (cppInputs bn254 (one (.sc (.flt 7 2))) = some [("a", [4])] ∧ jsInputs bn254 (one (.sc (.flt 7 2))) = none) ∧
    (cppInputs bn254 (one (list [list [], list [.sc (.int 1)]])) = none ∧
      jsInputs bn254 (one (list [list [], list [.sc (.int 1)]])) = some [("a", [1])]) ∧
    (cppInputs bn254 (one (list [.sc (.int 1), .sc (.int (2 ^ 70))])) = none ∧
      jsInputs bn254 (one (list [.sc (.int 1), .sc (.int (2 ^ 70))])) = some [("a", [1, 2 ^ 70])]) ∧
    (cppInputs bn254 (one (.sc (.str "0x"))) = some [("a", [0])] ∧ jsInputs bn254 (one (.sc (.str "0x"))) = none) := by
  refine ⟨⟨?_, ?_⟩, ⟨?_, ?_⟩, ⟨?_, ?_⟩, ⟨?_, ?_⟩, ⟨?_, ?_⟩, ⟨?_, ?_⟩, ⟨?_, ?_⟩⟩ <;> decide +kernel

/-- A key with a dot beside the object it names: both accept, and read different values. -/
theorem C83_keys_violated :
    cppInputs bn254 (.obj (.cons "a.b" (.sc (.int 2)) (.cons "a" (.obj (.cons "b" (.sc (.int 1)) .nil)) .nil))) = some [("a.b", [2])] ∧
    jsInputs bn254 (.obj (.cons "a.b" (.sc (.int 2)) (.cons "a" (.obj (.cons "b" (.sc (.int 1)) .nil)) .nil))) = some [("a.b", [1])] := by
  decide +kernel

/-- A signal named `__proto__` cannot be given to the JavaScript program. -/
theorem C83_proto_violated :
    cppInputs bn254 (.obj (.cons "__proto__" (.sc (.int 2)) .nil)) = some [("__proto__", [2])] ∧
    jsInputs bn254 (.obj (.cons "__proto__" (.sc (.int 2)) .nil)) = some [] := by
  decide +kernel

example : (∀ c ∈ "12345678901234567890".toList, '0' ≤ c ∧ c ≤ '9') ∧ (-2 ^ 53 : Int).natAbs ≤ 2 ^ 53 := by decide +kernel

end Verif.Props.JsonIn
