import Verif.MappedTables

/-! # C66 and C67: signals of mixed arrays of components at run time -/

set_option linter.unusedVariables false

namespace Verif.Props.Mapped

open Verif.ModArith (Fail Res)
open Verif.Mapped

/-! ## Data used in the examples -/

/-- Bus 0 is a point with two numbers, bus 1 has a number and an array of two points. -/
def point : List Def := [⟨0, [], 1, none⟩, ⟨1, [], 1, none⟩]

/-- See `point`. -/
def segment : List Def := [⟨0, [], 1, none⟩, ⟨1, [2], 2, some 0⟩]

/-- Two instances in mixed arrays (1 and 3); instance 1 has an output `segs[2][3]` of buses, instance 3 a matrix. -/
def tables : List (Option (List Def)) :=
  [none, some [⟨0, [2, 3], 5, some 1⟩, ⟨30, [], 1, none⟩], none, some [⟨0, [2, 4, 3], 1, none⟩, ⟨24, [7], 1, none⟩]]

theorem ListsAt.mono {mem mem' : Int → Option Int} {fb start : Nat} {m : List (Option (List Def))}
    (h : ∀ a w, mem a = some w → mem' a = some w) (hl : ListsAt mem fb start m) : ListsAt mem' fb start m := by
  intro t ds ht
  obtain ⟨A, hA, hAd⟩ := hl t ds ht
  refine ⟨A, h _ _ hA, fun c d hc => ?_⟩
  obtain ⟨D, hD, h1, h2, h3, h4⟩ := hAd c d hc
  exact ⟨D, h _ _ hD, h _ _ h1, fun k l hk hl => h _ _ (h2 k l hk hl), fun hn => h _ _ (h3 hn), fun b hb => h _ _ (h4 b hb)⟩

/-- **C66, wasm (partial).**  In a memory that contains the tables written by the compiler, the code of an access to a signal of a
component of a mixed array turns the template number of the component into the byte offset of the accessed element: offset of
the signal, row-major positions of all indices, offsets of all fields.  What is missing: indices whose own code uses the local
`io_info` (see `C66_wasm_nested_violated`). -/
theorem C66_wasm_partial (base fb : Nat) (io : List (Option (List Def))) (buses : List (List Def)) (mem : Int → Option Int)
    (hmem : ∀ a w, memOf base (image base fb io buses) a = some w → mem a = some w) (t c : Nat) (ds : List Def) (d : Def)
    (ht : io[t]? = some (some ds)) (hc : ds[c]? = some d) (accs : List Acc) (hpl : PlainAll mem accs)
    (hty : Typed buses false d accs) :
    ∃ code r, wMapped fb base (busStart base io) c accs = .ok code ∧ pos buses d accs = some r ∧
      ∀ st l, ∃ l', wRun mem code ((t : Int) :: st, l) = some (((d.offset : Int) + r) * fb :: st, l') :=
  wMapped_run (ListsAt.mono hmem (image_lists base fb io buses).1) (ListsAt.mono hmem (image_lists base fb io buses).2)
    ht hc hpl hty

/-- `c[i].segs[1][2].f1[1].f0` with instance 1: a chain that meets all hypotheses, and its code really runs to the position
`(1*3+2)*5 + 1 + 1*2 + 0 = 28` words of 32 bytes. -/
example :
    PlainAll (memOf 100 (image 100 32 tables [point, segment]))
      [.indexed [.known 1, .known 2] 2, .qualified 1, .indexed [.known 1] 1, .qualified 0] ∧
    Typed [point, segment] false ⟨0, [2, 3], 5, some 1⟩
      [.indexed [.known 1, .known 2] 2, .qualified 1, .indexed [.known 1] 1, .qualified 0] ∧
    (match wMapped 32 100 (busStart 100 tables) 0
      [.indexed [.known 1, .known 2] 2, .qualified 1, .indexed [.known 1] 1, .qualified 0] with
      | .ok code =>
        (match wRun (memOf 100 (image 100 32 tables [point, segment])) code ([1], 0) with
         | some (st, _) => decide (st = [28 * 32])
         | none => false)
      | _ => false) = true := by
  refine ⟨⟨?_, ?_, trivial⟩, ⟨rfl, rfl, by simp, by simp, Or.inr ⟨rfl, rfl⟩, Or.inr rfl, 1, segment, ⟨1, [2], 2, some 0⟩, rfl,
    rfl, rfl, rfl, rfl, by simp, by simp, Or.inr ⟨rfl, rfl⟩, Or.inr rfl, 0, point, ⟨0, [], 1, none⟩, rfl, rfl, rfl, trivial⟩,
    by decide +kernel⟩
  · intro v hv
    simp only [List.mem_cons, List.not_mem_nil, or_false] at hv
    rcases hv with rfl | rfl <;> exact plain_known _ _
  · intro v hv
    simp only [List.mem_cons, List.not_mem_nil, or_false] at hv
    subst hv
    exact plain_known _ _

/-- A missing dimension: `c[i].m[1][2]` of a `2 x 4 x 3` matrix is the row at position `(1*4+2)*3 = 18`. -/
example : (match wMapped 32 100 (busStart 100 tables) 0 [.indexed [.known 1, .known 2] 3] with
    | .ok code =>
      (match wRun (memOf 100 (image 100 32 tables [point, segment])) code ([3], 0) with
       | some (st, _) => decide (st = [18 * 32])
       | none => false)
    | _ => false) = true := by decide +kernel

/-- **C66, wasm: violated for nested accesses.**  `c[i].m[c[j].x[4]][2][1]` with both components of instance 3: the code of the
inner access leaves `io_info` at the definition of `x`, so the outer access multiplies by the wrong words.  The inner index has
the value 1, the element is at `(1*4+2)*3+1 = 19`, the code does not get there. -/
theorem C66_wasm_nested_violated : ∃ (mem : Int → Option Int) (inner outer : List W) (v : Int),
    (∀ a w, memOf 100 (image 100 32 tables [point, segment]) a = some w → mem a = some w) ∧
    wMapped 32 100 (busStart 100 tables) 1 [.indexed [.known 4] 1] = .ok inner ∧
    (∀ st l, ∃ l', wRun mem ([.const 5000, .const 3] ++ inner ++ [.add, .load 0]) (st, l) = some (v :: st, l')) ∧
    wMapped 32 100 (busStart 100 tables) 0
      [.indexed [⟨[.const 5000, .const 3] ++ inner ++ [.add, .load 0], v⟩, .known 2, .known 1] 3] = .ok outer ∧
    pos [point, segment] ⟨0, [2, 4, 3], 1, none⟩
      [.indexed [⟨[.const 5000, .const 3] ++ inner ++ [.add, .load 0], v⟩, .known 2, .known 1] 3] = some 19 ∧
    ∀ l, ∃ w l', wRun mem outer ([3], l) = some ([w], l') ∧ w ≠ 19 * 32 := by
  let mem : Int → Option Int := fun a =>
    if a = 5896 then some 1 else memOf 100 (image 100 32 tables [point, segment]) a
  refine ⟨mem, _, _, 1, ?_, rfl, ?_, rfl, by decide +kernel, ?_⟩
  · intro a w h
    by_cases ha : a = 5896
    · subst ha
      have hn : memOf 100 (image 100 32 tables [point, segment]) 5896 = none := by decide +kernel
      rw [hn] at h
      simp at h
    · show (if a = 5896 then _ else _) = _
      rw [if_neg ha]; exact h
  · intro st l
    exact ⟨_, rfl⟩
  · intro l
    exact ⟨_, _, rfl, by decide +kernel⟩

/-- **C66, C++ (partial).**  From the tables that the program reads, an access computes the same position when every list of indices
has one index, or all indices and, in a store or a call, elements of size one.  What is missing are the other index lists, for
which the text has the wrong precedence (see the violations). -/
theorem C66_cpp_partial (site : Site) (buses : List (List Def)) (d : Def) (accs : List Acc) (hty : Typed buses false d accs)
    (hg : GoodAll site buses d accs) : ∃ r, pos buses d accs = some r ∧
      cMapped site (buses.map fun fs => fs.map Def.run) d.run accs = .ok (some ((d.offset : Int) + r)) := by
  obtain ⟨r, h1, h2⟩ := cAccesses_pos hty hg
  exact ⟨r, h1, by simp only [cMapped, h2]; rfl⟩

/-- The chain of the first example is good for a load. -/
example : GoodAll .load [point, segment] ⟨0, [2, 3], 5, some 1⟩
      [.indexed [.known 1, .known 2] 2, .qualified 1, .indexed [.known 1] 1, .qualified 0] ∧
    cMapped .load ([point, segment].map fun fs => fs.map Def.run) (Def.run ⟨0, [2, 3], 5, some 1⟩)
      [.indexed [.known 1, .known 2] 2, .qualified 1, .indexed [.known 1] 1, .qualified 0] = .ok (some 28) := by
  refine ⟨⟨Or.inr ⟨rfl, Or.inl rfl⟩, ?_⟩, ?_⟩
  · intro b fs d' hb hbs hfs
    cases hb
    cases hbs
    cases hfs
    refine ⟨Or.inl rfl, ?_⟩
    intro b fs d' hb hbs hfs
    trivial
  · rfl

/-- **C66, C++ load: violated** for several indices with a missing dimension: for `m[1][2]` of a `2 x 4 x 3` matrix the text is
`((1)*(4)+2*3)*1`, which is 10, not 18. -/
theorem C66_cpp_load_violated : ∃ (d : Def) (accs : List Acc), Typed [] false d accs ∧ pos [] d accs = some 18 ∧
    cMapped .load [] d.run accs = .ok (some 10) :=
  ⟨⟨0, [2, 4, 3], 1, none⟩, [.indexed [.known 1, .known 2] 3],
    ⟨rfl, rfl, by simp, by simp, Or.inl rfl, trivial⟩, by decide +kernel, rfl⟩

/-- **C66, C++ store and call: violated** also for complete index lists of arrays of buses: for `segs[1][2]` with elements of
size 5 the text is `(1)*3+2*5`, which is 13, not 25. -/
theorem C66_cpp_store_violated : ∃ (d : Def) (accs : List Acc), Typed [point, segment] false d accs ∧
    pos [point, segment] d accs = some 25 ∧
    cMapped .store [] d.run accs = .ok (some 13) ∧ cMapped .call [] d.run accs = .ok (some 13) :=
  ⟨⟨0, [2, 3], 5, some 1⟩, [.indexed [.known 1, .known 2] 2],
    ⟨rfl, rfl, by simp, by simp, Or.inl rfl, trivial⟩, by decide +kernel, rfl, rfl⟩

/-! ## C67: the tables -/

/-- **C67, C++ tables (partial).**  The program reads back exactly the tables that the compiler wrote, whatever follows them, when no
bus has more than ten fields.  (With more the program writes beyond an allocated array, see the violation.) -/
theorem C67_cpp_partial (io : List (Nat × List Def)) (buses : List (List Def)) (rest : List Nat) (hio : io ≠ [])
    (hb : ∀ b ∈ buses, b.length ≤ 10) : readTables io.length buses.length (encTables io buses ++ rest) =
      some (io.map fun e => (e.1, e.2.map Def.run), buses.map fun b => b.map Def.run) :=
  readTables_enc io buses rest hio hb

example : readTables 2 2 (encTables [(1, [⟨0, [2, 3], 5, some 1⟩, ⟨30, [], 1, none⟩]), (3, [⟨0, [2, 4, 3], 1, none⟩])]
      [point, segment] ++ [7]) =
    some ([(1, [⟨0, [3], 5, 1⟩, ⟨30, [], 1, 0⟩]), (3, [⟨0, [4, 3], 1, 0⟩])],
      [[⟨0, [], 1, 0⟩, ⟨1, [], 1, 0⟩], [⟨0, [], 1, 0⟩, ⟨1, [], 2, 0⟩]]) := by decide +kernel

/-- **C67, C++ tables: violated** for a bus with eleven fields. -/
theorem C67_cpp_violated : ∃ (io : List (Nat × List Def)) (buses : List (List Def)), io ≠ [] ∧
    readTables io.length buses.length (encTables io buses) = none :=
  ⟨[(0, point)], [(List.range 11).map fun i => ⟨i, [], 1, none⟩], by simp, by decide +kernel⟩

/-- **C67, wasm tables.**  The memory image contains, reachable through the two levels of pointers, every definition of every
instance and every field of every bus. -/
theorem C67_wasm (base fb : Nat) (io : List (Option (List Def))) (buses : List (List Def)) :
    ListsAt (memOf base (image base fb io buses)) fb base io ∧
      ListsAt (memOf base (image base fb io buses)) fb (busStart base io) (buses.map some) := image_lists base fb io buses

example : image 100 32 [none, some [⟨0, [2, 3], 5, some 1⟩, ⟨30, [], 1, none⟩]] [point, segment] =
    [0, 108, 116, 132, 0, 3, 5, 1, 960, 144, 152, 160, 164, 168, 172, 0, 32, 0, 32, 2, 0] ∧
    busStart 100 [none, some [⟨0, [2, 3], 5, some 1⟩, ⟨30, [], 1, none⟩]] = 136 := by decide +kernel

/-- **C67, codes (partial).**  If the inputs and outputs of an instance have the names of the first wires of the first instance of
its template, in the same order, every input and output gets its own position as code, so that entry `code` of the table of the
instance is the definition of that signal.  (Fails when instances of a template differ in their signals, see the violation.) -/
theorem C67_codes_partial (fio fint ws : List Wire) (hn : ((fio ++ fint).map Wire.name).Nodup)
    (h0 : ∀ w ∈ ws, w.lengths.foldl (· * ·) 1 ≠ 0) (hs : fio.map Wire.name = (ws.filter (·.io)).map Wire.name) :
    ∃ l, ioList (fio ++ fint) ws = .ok l ∧
      ∀ (k : Nat) (w : Wire), (ws.filter (·.io))[k]? = some w → signalId (fio ++ fint) w.name = .ok k ∧
        l[k]? = some (k, ⟨w.localId, w.lengths, w.size / w.lengths.foldl (· * ·) 1, w.bus⟩) := by
  obtain ⟨l, h1, h2, h3⟩ := ioList_codes (first := fio ++ fint) (ws := ws) rfl hn h0 (pre := []) (by simpa using hs)
  refine ⟨l, h1, fun k w hk => ?_⟩
  have hlt : k < (ws.filter (·.io)).length := (List.getElem?_eq_some_iff.1 hk).1
  have hl : l.length = (ws.filter (·.io)).length := by
    have := congrArg List.length h3
    simpa using this
  have hk1 : (l.map (·.1))[k]? = some k := by
    rw [h2, List.getElem?_range' (by simpa using hlt)]
    simp
  have hk2 := congrArg (fun x => x[k]?) h3
  simp only [List.getElem?_map, hk, Option.map_some] at hk2
  obtain ⟨e, he⟩ : ∃ e, l[k]? = some e := ⟨l[k], List.getElem?_eq_getElem (by omega)⟩
  rw [List.getElem?_map, he] at hk1
  rw [he] at hk2
  simp only [Option.map_some, Option.some.injEq] at hk1 hk2
  refine ⟨?_, by rw [he, ← hk2, ← hk1]⟩
  -- the code given to `w` is its position
  have hnm : (fio ++ fint).map Wire.name = (ws.filter (·.io)).map Wire.name ++ fint.map Wire.name := by
    rw [List.map_append, hs]
  have hfi : (fio ++ fint).findIdx? (fun v => v.name = w.name) = some k := by
    have hlen : fio.length = (ws.filter (·.io)).length := by
      have := congrArg List.length hs
      simpa using this
    have hname : ∀ i (hi : i < (fio ++ fint).length), (fio ++ fint)[i].name =
        ((fio ++ fint).map Wire.name)[i]'(by simpa using hi) := by
      intro i hi; rw [List.getElem_map]
    have hkk : k < (fio ++ fint).length := by simp; omega
    have hwk : ((fio ++ fint).map Wire.name)[k]'(by simpa using hkk) = w.name := by
      simp only [hnm]
      rw [List.getElem_append_left (by simpa using hlt), List.getElem_map]
      rw [List.getElem?_eq_getElem hlt] at hk
      rw [Option.some.inj hk]
    rw [List.findIdx?_eq_some_iff_getElem]
    refine ⟨hkk, ?_, ?_⟩
    · simp only [decide_eq_true_eq]
      rw [hname _ hkk, hwk]
    · intro j hj
      simp only [decide_eq_true_eq]
      intro hej
      rw [hname _ (by omega)] at hej
      have := (List.Nodup.getElem_inj_iff hn).1 (hej.trans hwk.symm)
      omega
  simp only [signalId, hfi]

/-- Two instances of one template with arrays of different sizes. -/
def firstInst : List Wire :=
  [⟨"out", true, 0, [2], 2, none⟩, ⟨"in", true, 2, [], 1, none⟩, ⟨"tmp", false, 3, [], 1, none⟩]

/-- See `firstInst`. -/
def secondInst : List Wire :=
  [⟨"out", true, 0, [3], 3, none⟩, ⟨"in", true, 3, [], 1, none⟩, ⟨"tmp", false, 4, [], 1, none⟩]

example : (firstInst.map Wire.name).Nodup ∧
    (firstInst.take 2).map Wire.name = (secondInst.filter (·.io)).map Wire.name ∧
    ioList firstInst secondInst = .ok [(0, ⟨0, [3], 1, none⟩), (1, ⟨3, [], 1, none⟩)] := by
  refine ⟨by decide, by decide, by decide +kernel⟩

/-- **C67, codes: violated** when an output is declared only for some parameters: the first instance has the outputs `a`, `b`, the
second only `b`.  The code of `b` is 1, but entry 1 of the table of the second instance is its input `x`. -/
theorem C67_codes_violated : ∃ (first second : List Wire) (l : List (Nat × Def)), (first.map Wire.name).Nodup ∧
    (second.map Wire.name).Nodup ∧ ioList first second = .ok l ∧ signalId first "b" = .ok 1 ∧
    l[1]? = some (2, ⟨1, [], 1, none⟩) ∧ second.map Wire.name = ["b", "x"] ∧ second.map Wire.localId = [0, 1] :=
  ⟨[⟨"a", true, 0, [], 1, none⟩, ⟨"b", true, 1, [], 1, none⟩, ⟨"x", true, 2, [], 1, none⟩],
   [⟨"b", true, 0, [], 1, none⟩, ⟨"x", true, 1, [], 1, none⟩],
   [(1, ⟨0, [], 1, none⟩), (2, ⟨1, [], 1, none⟩)], by decide, by decide, by decide +kernel, by decide +kernel, rfl, rfl, rfl⟩

/-- **C67, codes: violated** by a panic when the second instance has a signal that the first has not. -/
theorem C67_codes_panic : ∃ (first second : List Wire), (first.map Wire.name).Nodup ∧ (second.map Wire.name).Nodup ∧
    ioList first second = .error .panic :=
  ⟨[⟨"b", true, 0, [], 1, none⟩], [⟨"a", true, 0, [], 1, none⟩, ⟨"b", true, 1, [], 1, none⟩], by decide, by decide,
    by decide +kernel⟩

end Verif.Props.Mapped
