import Verif.R1csLemmas

/-!
# Properties of the constraint file (C37, C38, C39, C56)
-/

namespace Verif.Props.R1cs
open Verif.Bytes Verif.Algebra Verif.R1cs
set_option linter.unusedSimpArgs false

/-! ## Specification -/

/-- Little-endian representation of `n` with `w` bytes. -/
def le (w n : Nat) : List Nat := (List.range w).map fun i => n / 256 ^ i % 256

/-- Two hash maps with the same contents. -/
def Same (m m' : CMap Nat) : Prop := m'.WF ∧ ∀ k, m'.get k = m.get k

/-- The values to be written fit the widths of the format. -/
structure Fits (d : Data) : Prop where
  field : 0 < d.header.field
  size : fieldSize d.header.field < 2 ^ 32
  outputs : d.header.publicOutputs < 2 ^ 32
  pubInputs : d.header.publicInputs < 2 ^ 32
  privInputs : d.header.privateInputs < 2 ^ 32
  labels : d.header.labels < 2 ^ 64
  constraintCount : d.header.constraints = d.constraints.length
  constraintBound : d.constraints.length < 2 ^ 32
  wireCount : d.header.totalWires = d.signals.length
  wireBound : d.signals.length < 2 ^ 32
  signals : ∀ x ∈ d.signals, x < 2 ^ 64
  maps : ∀ c ∈ d.constraints, FitsMap d.header.field c.1 ∧ FitsMap d.header.field c.2.1 ∧ FitsMap d.header.field c.2.2
  used : ∀ used applied, d.custom = some (used, applied) → used.length < 2 ^ 32 ∧
    ∀ g ∈ used, 0 ∉ g.1 ∧ g.2.length < 2 ^ 32 ∧ ∀ x ∈ g.2, 0 ≤ x ∧ x < d.header.field
  applied : ∀ used applied, d.custom = some (used, applied) → applied.length < 2 ^ 32 ∧
    ∀ g ∈ applied, g.1 < 2 ^ 32 ∧ g.2.length < 2 ^ 32 ∧ ∀ x ∈ g.2, x < 2 ^ 64
  total : (writeFile d).length < 2 ^ 63

/-- A linear combination laid out with the given order of terms. -/
def layout (fs : Nat) (terms : CMap Nat) : List Nat :=
  le 4 terms.length ++ terms.flatMap fun e => le 4 e.1 ++ le fs e.2.toNat

/-- The layout of a section. -/
def layoutSection (t : Nat) (body : List Nat) : List Nat := [t, 0, 0, 0] ++ le 8 body.length ++ body

/-! ## C37 -/

theorem same_readBack {m : CMap Nat} (hw : m.WF) : Same m (numKeys (blockEntries m)) := by
  have hp := blockEntries_perm hw
  rw [← numKeys_blockEntries hw] at hp
  have hw' : (numKeys (blockEntries m)).WF := ((hp.map Prod.fst).nodup_iff).2 hw
  refine ⟨hw', fun k => ?_⟩
  cases h : m.get k with
  | some v => exact CMap.get_of_mem hw' (hp.mem_iff.2 (CMap.get_mem h))
  | none =>
    cases h' : (numKeys (blockEntries m)).get k with
    | none => rfl
    | some v =>
      rw [CMap.get_of_mem hw (hp.mem_iff.1 (CMap.get_mem h'))] at h
      exact absurd h (by simp)

theorem readInit_newFile (b : Bool) (post : List Nat) :
    readInit (newFile b ++ post) = .ok (if b then 5 else 3, 12) := by
  cases b <;> simp [readInit, newFile, magic, version, readExact, bind, Except.bind]

theorem ok_bind {α β : Type} (x : α) (f : α → Except RErr β) : (Except.ok x >>= f) = f x := rfl

/-- **C37**: reading back a file written by the compiler gives the header, the constraints with the same coefficients on
the same wires, the wire map and the custom gate tables. -/
theorem C37_round_trip (d : Data) (h : Fits d) :
    ∃ d', readFile (writeFile d) = .ok d' ∧ d'.header = d.header ∧ d'.signals = d.signals ∧ d'.custom = d.custom ∧
      List.Forall₂ (fun c c' => Same c.1 c'.1 ∧ Same c.2.1 c'.2.1 ∧ Same c.2.2 c'.2.2) d.constraints d'.constraints := by
  have hp : (2 : Nat) ^ 63 < 256 ^ 8 := by decide
  have hF := writeFile_eq h.total
  have hT := h.total
  refine ⟨⟨d.header, d.constraints.map readBack, d.signals, d.custom⟩, ?_, rfl, rfl, rfl, ?_⟩
  swap
  · rw [List.forall₂_map_right_iff]
    refine List.forall₂_same.2 fun c hc => ?_
    obtain ⟨h1, h2, h3⟩ := h.maps c hc
    exact ⟨same_readBack h1.1, same_readBack h2.1, same_readBack h3.1⟩
  -- the bodies
  have r2 := reads_many (item := fun file pos => readConstraint file (fieldSize d.header.field) pos)
    (enc := tripleBytes (fieldSize d.header.field)) (dec := readBack) d.constraints
    (fun c hc => reads_triple h.field (h.maps c hc).1 (h.maps c hc).2.1 (h.maps c hc).2.2)
  have r1 := reads_header (d := d.header) h.field h.size (by rw [h.wireCount]; exact h.wireBound) h.outputs h.pubInputs
    h.privInputs h.labels (by rw [h.constraintCount]; exact h.constraintBound)
  have r3 := reads_many (item := fun file pos => readInt file pos 8) (enc := fun (x : Nat) => bigintAsBytes x 8)
    (dec := fun x => x) d.signals (fun x hx => reads_nat (by decide) (by simpa using h.signals x hx))
  rw [List.map_id'] at r3
  set b2 := d.constraints.flatMap (tripleBytes (fieldSize d.header.field)) with hb2
  set b1 := headerBytes (fieldSize d.header.field) d.header with hb1
  set b3 := d.signals.flatMap (fun (x : Nat) => bigintAsBytes (x : Int) 8) with hb3
  obtain ⟨rest, hrest⟩ : ∃ rest, writeFile d =
      newFile d.custom.isSome ++ sectionBytes 2 b2 ++ sectionBytes 1 b1 ++ sectionBytes 3 b3 ++ rest := by
    rw [hF]
    simp only [sectionsOf, List.flatMap_append, List.flatMap_cons, List.flatMap_nil, ← hb1, ← hb2, ← hb3]
    exact ⟨_, by simp only [List.append_assoc, List.append_nil]; rfl⟩
  have hl : b2.length < 256 ^ 8 ∧ b1.length < 256 ^ 8 ∧ b3.length < 256 ^ 8 := by
    rw [hrest] at hT
    simp only [sectionBytes, List.length_append] at hT
    omega
  obtain ⟨l2, l1, l3⟩ := hl
  set p2 := newFile d.custom.isSome with hp2
  have hn : p2.length = 12 := by rw [hp2]; simp [newFile, magic, version]
  -- the sections at their places
  have f2 := reads_section (t := 2) l2 p2 (sectionBytes 1 b1 ++ sectionBytes 3 b3 ++ rest)
  have g2 := reads_body (t := 2) l2 r2 p2 (sectionBytes 1 b1 ++ sectionBytes 3 b3 ++ rest)
  have s2 := scan_section (t := 2) (n := if d.custom.isSome then 5 else 3) (left := (if d.custom.isSome then 5 else 3) - 1) l2
    (by cases d.custom.isSome <;> simp) p2 (sectionBytes 1 b1 ++ sectionBytes 3 b3 ++ rest) []
  have f1 := reads_section (t := 1) l1 (p2 ++ sectionBytes 2 b2) (sectionBytes 3 b3 ++ rest)
  have g1 := reads_body (t := 1) l1 r1 (p2 ++ sectionBytes 2 b2) (sectionBytes 3 b3 ++ rest)
  have s1 := fun st => scan_section (t := 1) (n := if d.custom.isSome then 5 else 3) (left := (if d.custom.isSome then 5 else 3) - 2) l1
    (by cases d.custom.isSome <;> simp) (p2 ++ sectionBytes 2 b2) (sectionBytes 3 b3 ++ rest) st
  have f3 := reads_section (t := 3) l3 (p2 ++ sectionBytes 2 b2 ++ sectionBytes 1 b1) rest
  have g3 := reads_body (t := 3) l3 r3 (p2 ++ sectionBytes 2 b2 ++ sectionBytes 1 b1) rest
  have s3 := fun st => scan_section (t := 3) (n := if d.custom.isSome then 5 else 3) (left := (if d.custom.isSome then 5 else 3) - 3) l3
    (by cases d.custom.isSome <;> simp) (p2 ++ sectionBytes 2 b2 ++ sectionBytes 1 b1) rest st
  have e2 : p2 ++ sectionBytes 2 b2 ++ (sectionBytes 1 b1 ++ sectionBytes 3 b3 ++ rest) = writeFile d := by rw [hrest]; simp
  have e1 : p2 ++ sectionBytes 2 b2 ++ sectionBytes 1 b1 ++ (sectionBytes 3 b3 ++ rest) = writeFile d := by rw [hrest]; simp
  have e3 : p2 ++ sectionBytes 2 b2 ++ sectionBytes 1 b1 ++ sectionBytes 3 b3 ++ rest = writeFile d := hrest.symm
  rw [e2] at f2 g2 s2
  rw [e1] at f1 g1
  rw [e3] at f3 g3
  simp only [e1] at s1
  simp only [e3] at s3
  have hi := readInit_newFile d.custom.isSome (sectionBytes 2 b2 ++ (sectionBytes 1 b1 ++ (sectionBytes 3 b3 ++ rest)))
  rw [← hp2, show p2 ++ (sectionBytes 2 b2 ++ (sectionBytes 1 b1 ++ (sectionBytes 3 b3 ++ rest))) = writeFile d by
    rw [hrest]; simp] at hi
  rw [← h.constraintCount] at g2
  rw [← h.wireCount] at g3
  unfold readFile
  rw [hi]
  simp only [ok_bind]
  rw [show (12 : Nat) = p2.length from hn.symm]
  cases hc : d.custom with
  | none =>
    simp only [hc, Option.isSome_none, Bool.false_eq_true, if_false, Nat.reduceSub, Nat.reduceAdd] at s2 s1 s3
    simp only [Option.isSome_none, Bool.false_eq_true, if_false]
    rw [s2, s1, s3]
    simp only [scan, ok_bind, startOf, List.find?, decide_true, decide_false, Nat.reduceEqDiff, f1, f2, f3, g1, g2, g3]
    rfl
  | some ua =>
    obtain ⟨used, applied⟩ := ua
    obtain ⟨u1, u2⟩ := h.used used applied hc
    obtain ⟨a1, a2⟩ := h.applied used applied hc
    have r4 := reads_usages h.field u1 u2
    have r5 := reads_applications a1 a2
    set b4 := usagesBytes (fieldSize d.header.field) used with hb4
    set b5 := applicationsBytes applied with hb5
    have hrest4 : rest = sectionBytes 4 b4 ++ sectionBytes 5 b5 := by
      have : writeFile d = p2 ++ sectionBytes 2 b2 ++ sectionBytes 1 b1 ++ sectionBytes 3 b3 ++
          (sectionBytes 4 b4 ++ sectionBytes 5 b5) := by
        rw [hF]
        simp only [sectionsOf, hc, List.flatMap_append, List.flatMap_cons, List.flatMap_nil, ← hb1, ← hb2, ← hb3, ← hb4, ← hb5]
        simp only [List.append_assoc, List.append_nil]
      exact List.append_cancel_left (hrest.symm.trans this)
    subst hrest4
    have hl : b4.length < 256 ^ 8 ∧ b5.length < 256 ^ 8 := by
      rw [hrest] at hT
      simp only [sectionBytes, List.length_append] at hT
      omega
    obtain ⟨l4, l5⟩ := hl
    have f4 := reads_section (t := 4) l4 (p2 ++ sectionBytes 2 b2 ++ sectionBytes 1 b1 ++ sectionBytes 3 b3) (sectionBytes 5 b5)
    have g4 := reads_body (t := 4) l4 r4 (p2 ++ sectionBytes 2 b2 ++ sectionBytes 1 b1 ++ sectionBytes 3 b3) (sectionBytes 5 b5)
    have s4 := fun st => scan_section (t := 4) (n := 5) (left := 1) l4 (by decide)
      (p2 ++ sectionBytes 2 b2 ++ sectionBytes 1 b1 ++ sectionBytes 3 b3) (sectionBytes 5 b5) st
    have f5 := reads_section (t := 5) l5 (p2 ++ sectionBytes 2 b2 ++ sectionBytes 1 b1 ++ sectionBytes 3 b3 ++ sectionBytes 4 b4) []
    have g5 := reads_body (t := 5) l5 r5 (p2 ++ sectionBytes 2 b2 ++ sectionBytes 1 b1 ++ sectionBytes 3 b3 ++ sectionBytes 4 b4) []
    have s5 := fun st => scan_section (t := 5) (n := 5) (left := 0) l5 (by decide)
      (p2 ++ sectionBytes 2 b2 ++ sectionBytes 1 b1 ++ sectionBytes 3 b3 ++ sectionBytes 4 b4) [] st
    have e4 : p2 ++ sectionBytes 2 b2 ++ sectionBytes 1 b1 ++ sectionBytes 3 b3 ++ sectionBytes 4 b4 ++ sectionBytes 5 b5 =
      writeFile d := by rw [hrest]; simp
    rw [List.append_nil, e4] at f5 g5
    rw [e4] at f4 g4
    simp only [List.append_nil, e4] at s4 s5
    simp only [hc, Option.isSome_some, if_true, Nat.reduceSub, Nat.reduceAdd] at s2 s1 s3
    simp only [Option.isSome_some, if_true]
    rw [s2, s1, s3, s4, s5]
    simp only [scan, ok_bind, startOf, List.find?, decide_true, decide_false, Nat.reduceEqDiff, f1, f2, f3, g1, g2, g3,
      readCustom, f4, f5, g4, g5, if_true]

instance {K : Type} [DecidableEq K] (m : CMap K) : Decidable m.WF := inferInstanceAs (Decidable (m.keys).Nodup)

/-- A small circuit over the field with 2^61 - 1 elements with one constraint, two wire maps and one custom gate. -/
def sample : Data where
  header := ⟨2305843009213693951, 3, 1, 1, 0, 5, 1⟩
  constraints := [([(1, 2), (0, 3)], [(2, 1)], [(1, 2305843009213693950)])]
  signals := [0, 1, 4]
  custom := some ([([71, 49], [7, 0])], [(0, [1, 2])])

theorem fits_sample : Fits sample where
  field := by decide
  size := by decide +kernel
  outputs := by decide
  pubInputs := by decide
  privInputs := by decide
  labels := by decide
  constraintCount := by decide
  constraintBound := by decide
  wireCount := by decide
  wireBound := by decide
  signals := by decide
  maps := by
    intro c hc
    simp only [sample, List.mem_singleton] at hc
    subst hc
    refine ⟨⟨by decide, by decide, by decide⟩, ⟨by decide, by decide, by decide⟩, ⟨by decide, by decide, by decide⟩⟩
  used := by
    intro u a h
    simp only [sample, Option.some.injEq, Prod.mk.injEq] at h
    obtain ⟨rfl, rfl⟩ := h
    decide
  applied := by
    intro u a h
    simp only [sample, Option.some.injEq, Prod.mk.injEq] at h
    obtain ⟨rfl, rfl⟩ := h
    decide
  total := by decide +kernel

example : ∃ d', readFile (writeFile sample) = .ok d' ∧ d'.header.totalWires = 3 ∧ d'.signals = [0, 1, 4] := by
  obtain ⟨d', h1, h2, h3, -⟩ := C37_round_trip sample fits_sample
  exact ⟨d', h1, by rw [h2]; rfl, by rw [h3]; rfl⟩

/-! ## C38 -/

theorem length_le (w n : Nat) : (le w n).length = w := by simp [le]

theorem isBytes_le (w n : Nat) : IsBytes (le w n) := by
  intro x hx
  simp only [le, List.mem_map] at hx
  obtain ⟨i, -, rfl⟩ := hx
  exact Nat.mod_lt _ (by decide)

theorem from_le (w n : Nat) : fromBytesLE (le w n) = n % 256 ^ w := by
  induction w with
  | zero => simp [le, fromBytesLE, Nat.mod_one]
  | succ w ih =>
    have : le (w + 1) n = le w n ++ [n / 256 ^ w % 256] := by simp [le, List.range_succ]
    rw [this, fromBytesLE_append, ih, length_le, Nat.mod_pow_succ]
    simp [fromBytesLE, Nat.ofDigits]

theorem asBytes_le {x : Int} {w : Nat} (hw : 0 < w) (h0 : 0 ≤ x) (h : x < 256 ^ w) : bigintAsBytes x w = le w x.toNat := by
  refine Nat.ofDigits_inj_of_len_eq (b := 256) (by decide) ?_ (isBytes_bigintAsBytes x w) (isBytes_le w _) ?_
  · rw [length_bigintAsBytes hw h0 h, length_le]
  · have h1 := from_bigintAsBytes w h0
    have h2 := from_le w x.toNat
    have h3 : x.toNat < 256 ^ w := by
      have : ((x.toNat : Nat) : Int) < ((256 ^ w : Nat) : Int) := by rw [Int.toNat_of_nonneg h0]; simpa using h
      exact Int.ofNat_lt.1 this
    rw [Nat.mod_eq_of_lt h3] at h2
    show fromBytesLE _ = fromBytesLE _
    rw [h2]
    omega

theorem natBytes_le {n w : Nat} (hw : 0 < w) (h : n < 256 ^ w) : bigintAsBytes (n : Int) w = le w n := by
  have := asBytes_le (x := (n : Int)) hw (by omega) (by exact_mod_cast h)
  simpa using this

theorem intoFormat_le {n w : Nat} (hw : 0 < w) (h : n < 256 ^ w) : intoFormat (toBytesLE n) w = le w n := by
  have := natBytes_le hw h
  simpa [bigintAsBytes] using this

theorem sectionBytes_layout {t : Nat} {body : List Nat} (h : body.length < 256 ^ 8) :
    sectionBytes t body = layoutSection t body := by
  rw [sectionBytes, natBytes_le (by decide) h]
  rfl

/-- **C38**: the file is the magic number, the version and the number of sections, followed by exactly that many sections,
each recorded with the exact length of its body. -/
theorem C38_sections (d : Data) (h : (writeFile d).length < 2 ^ 63) :
    ∃ bodies : List (Nat × List Nat), bodies.map Prod.fst = (if d.custom.isSome then [2, 1, 3, 4, 5] else [2, 1, 3]) ∧
      writeFile d = [114, 49, 99, 115] ++ [1, 0, 0, 0] ++ [bodies.length, 0, 0, 0] ++
        bodies.flatMap fun e => layoutSection e.1 e.2 := by
  have hp : (2 : Nat) ^ 63 < 256 ^ 8 := by decide
  refine ⟨sectionsOf d, ?_, ?_⟩
  · rw [sectionsOf]
    cases d.custom <;> rfl
  · have e := writeFile_eq h
    have hl : ∀ x ∈ sectionsOf d, x.2.length < 256 ^ 8 := by
      intro x hx
      have h1 : (sectionBytes x.1 x.2).length ≤ (writeFile d).length := by
        rw [e, List.length_append, List.length_flatMap]
        refine le_trans ?_ (Nat.le_add_left _ _)
        exact List.le_sum_of_mem (List.mem_map.2 ⟨x, hx, rfl⟩)
      simp only [sectionBytes, List.length_append] at h1
      omega
    rw [e]
    congr 1
    · rw [newFile, sectionsOf]
      cases d.custom <;> rfl
    · exact List.flatMap_congr fun x hx => sectionBytes_layout (hl x hx)

example : ∃ bodies : List (Nat × List Nat), bodies.length = 5 ∧ writeFile sample = [114, 49, 99, 115] ++ [1, 0, 0, 0] ++
    [bodies.length, 0, 0, 0] ++ bodies.flatMap fun e => layoutSection e.1 e.2 := by
  obtain ⟨b, h1, h2⟩ := C38_sections sample fits_sample.total
  exact ⟨b, by simpa [sample] using congrArg List.length h1, h2⟩

theorem blockBytes_layout {field : Int} (hf : 0 < field) {m : CMap Nat} (h : FitsMap field m) :
    blockBytes (byteKeys m) (fieldSize field) = layout (fieldSize field) (numKeys (blockEntries m)) := by
  obtain ⟨hw, hl, hm⟩ := h
  obtain ⟨hp, hfs⟩ := lt_pow_fieldSize hf
  rw [numKeys_blockEntries hw]
  have hlen : (byteKeys m).length = m.length := by rw [byteKeys_eq hw]; simp
  have hE : (blockEntries m).length = m.length := by simpa using (blockEntries_perm hw).length_eq
  unfold blockBytes layout
  rw [blockEntries_num hw, hlen, List.length_map, (sortKeys_perm _).length_eq, show (byteKeys m).keys.length = m.length by
    simp [CMap.keys, hlen], natBytes_le (by decide) (by simpa using hl), List.flatMap_map]
  congr 1
  refine List.flatMap_congr fun id hid => ?_
  obtain ⟨e, he, rfl, h2⟩ := mem_byteKeys hw hid
  obtain ⟨a, b, c⟩ := hm e he
  dsimp only
  rw [h2, from_toBytesLE, intoFormat_le (by decide) (by simpa using a), asBytes_le hfs b (c.trans hp)]

/-- **C38**, contents of the sections: every number is little-endian with the width of the format; each constraint is
three linear combinations, each with its number of terms and its terms in some order. -/
theorem C38_format (d : Data) (h : Fits d) :
    ∃ terms : List Triple,
      List.Forall₂ (fun c t => t.1.Perm c.1 ∧ t.2.1.Perm c.2.1 ∧ t.2.2.Perm c.2.2) d.constraints terms ∧
      writeFile d =
        [114, 49, 99, 115] ++ [1, 0, 0, 0] ++ [if d.custom.isSome then 5 else 3, 0, 0, 0] ++
        layoutSection 2 (terms.flatMap fun t => layout (fieldSize d.header.field) t.1 ++
          layout (fieldSize d.header.field) t.2.1 ++ layout (fieldSize d.header.field) t.2.2) ++
        layoutSection 1 (le 4 (fieldSize d.header.field) ++ le (fieldSize d.header.field) d.header.field.toNat ++
          le 4 d.header.totalWires ++ le 4 d.header.publicOutputs ++ le 4 d.header.publicInputs ++
          le 4 d.header.privateInputs ++ le 8 d.header.labels ++ le 4 d.header.constraints) ++
        layoutSection 3 (d.signals.flatMap (le 8)) ++
        (match d.custom with
        | none => []
        | some (used, applied) =>
          layoutSection 4 (le 4 used.length ++ used.flatMap fun g =>
            g.1 ++ [0] ++ le 4 g.2.length ++ g.2.flatMap fun x => le (fieldSize d.header.field) x.toNat) ++
          layoutSection 5 (le 4 applied.length ++ applied.flatMap fun g =>
            le 4 g.1 ++ le 4 g.2.length ++ g.2.flatMap (le 8))) := by
  obtain ⟨hp, hfs⟩ := lt_pow_fieldSize h.field
  refine ⟨d.constraints.map readBack, ?_, ?_⟩
  · rw [List.forall₂_map_right_iff]
    refine List.forall₂_same.2 fun c hc => ?_
    obtain ⟨h1, h2, h3⟩ := h.maps c hc
    have go : ∀ m : CMap Nat, m.WF → (numKeys (blockEntries m)).Perm m := fun m hw => by
      rw [numKeys_blockEntries hw]; exact blockEntries_perm hw
    exact ⟨go _ h1.1, go _ h2.1, go _ h3.1⟩
  have e := writeFile_eq h.total
  have hl : ∀ x ∈ sectionsOf d, x.2.length < 256 ^ 8 := by
    intro x hx
    have h1 : (sectionBytes x.1 x.2).length ≤ (writeFile d).length := by
      rw [e, List.length_append, List.length_flatMap]
      refine le_trans ?_ (Nat.le_add_left _ _)
      exact List.le_sum_of_mem (List.mem_map.2 ⟨x, hx, rfl⟩)
    simp only [sectionBytes, List.length_append] at h1
    have := h.total
    have hp : (2 : Nat) ^ 63 < 256 ^ 8 := by decide
    omega
  have n4 : ∀ n : Nat, n < 2 ^ 32 → bigintAsBytes (n : Int) 4 = le 4 n := fun n hn => natBytes_le (by decide) (by simpa using hn)
  have n8 : ∀ n : Nat, n < 2 ^ 64 → bigintAsBytes (n : Int) 8 = le 8 n := fun n hn => natBytes_le (by decide) (by simpa using hn)
  have c2 : d.constraints.flatMap (tripleBytes (fieldSize d.header.field)) = (d.constraints.map readBack).flatMap
      fun t => layout (fieldSize d.header.field) t.1 ++ layout (fieldSize d.header.field) t.2.1 ++
        layout (fieldSize d.header.field) t.2.2 := by
    rw [List.flatMap_map]
    refine List.flatMap_congr fun c hc => ?_
    obtain ⟨h1, h2, h3⟩ := h.maps c hc
    simp only [tripleBytes, readBack, blockBytes_layout h.field h1, blockBytes_layout h.field h2, blockBytes_layout h.field h3]
  have c1 : headerBytes (fieldSize d.header.field) d.header = le 4 (fieldSize d.header.field) ++
      le (fieldSize d.header.field) d.header.field.toNat ++
      le 4 d.header.totalWires ++ le 4 d.header.publicOutputs ++ le 4 d.header.publicInputs ++
      le 4 d.header.privateInputs ++ le 8 d.header.labels ++ le 4 d.header.constraints := by
    rw [headerBytes, n4 _ h.size, asBytes_le hfs h.field.le hp, n4 _ (by rw [h.wireCount]; exact h.wireBound), n4 _ h.outputs,
      n4 _ h.pubInputs, n4 _ h.privInputs, n8 _ h.labels, n4 _ (by rw [h.constraintCount]; exact h.constraintBound)]
  have c3 : d.signals.flatMap (fun (x : Nat) => bigintAsBytes (x : Int) 8) = d.signals.flatMap (le 8) :=
    List.flatMap_congr fun x hx => n8 x (h.signals x hx)
  rw [e, List.flatMap_congr (g := fun x => layoutSection x.1 x.2) fun x hx => sectionBytes_layout (hl x hx), sectionsOf, ← c2, ← c1,
    ← c3]
  cases hc : d.custom with
  | none => simp [newFile, magic, version]
  | some ua =>
    obtain ⟨used, applied⟩ := ua
    obtain ⟨u1, u2⟩ := h.used used applied hc
    obtain ⟨a1, a2⟩ := h.applied used applied hc
    have c4 : usagesBytes (fieldSize d.header.field) used = le 4 used.length ++ used.flatMap fun g =>
        g.1 ++ [0] ++ le 4 g.2.length ++ g.2.flatMap fun x => le (fieldSize d.header.field) x.toNat := by
      rw [usagesBytes, n4 _ u1]
      congr 1
      refine List.flatMap_congr fun g hg => ?_
      obtain ⟨-, g2, g3⟩ := u2 g hg
      rw [usageBytes, n4 _ g2]
      congr 1
      exact List.flatMap_congr fun x hx => asBytes_le hfs (g3 x hx).1 ((g3 x hx).2.trans hp)
    have c5 : applicationsBytes applied = le 4 applied.length ++ applied.flatMap fun g =>
        le 4 g.1 ++ le 4 g.2.length ++ g.2.flatMap (le 8) := by
      rw [applicationsBytes, n4 _ a1]
      congr 1
      refine List.flatMap_congr fun g hg => ?_
      obtain ⟨g1, g2, g3⟩ := a2 g hg
      rw [applicationBytes, n4 _ g1, n4 _ g2]
      congr 1
      exact List.flatMap_congr fun x hx => n8 x (g3 x hx)
    simp only [← c4, ← c5]
    simp [newFile, magic, version]

example : (writeFile sample).take 36 = [114, 49, 99, 115, 1, 0, 0, 0, 5, 0, 0, 0, 2, 0, 0, 0, 60, 0, 0, 0, 0, 0, 0, 0,
    2, 0, 0, 0, 0, 0, 0, 0, 3, 0, 0, 0] := by decide +kernel

/-! ## C39 -/

theorem bytesLe_refl : ∀ a : List Nat, bytesLe a a = true
  | [] => rfl
  | a :: as => by simp [bytesLe, bytesLe_refl as]

theorem bytesLe_total : ∀ a b : List Nat, bytesLe a b = true ∨ bytesLe b a = true
  | [], _ => .inl rfl
  | _ :: _, [] => .inr rfl
  | a :: as, b :: bs => by
    simp only [bytesLe]
    rcases Nat.lt_trichotomy a b with h | h | h
    · simp [h]
    · subst h; simpa using bytesLe_total as bs
    · simp [h]

theorem bytesLe_trans : ∀ a b c : List Nat, bytesLe a b = true → bytesLe b c = true → bytesLe a c = true
  | [], _, _ => fun _ _ => rfl
  | _ :: _, [], _ => fun h => by simp [bytesLe] at h
  | _ :: _, _ :: _, [] => fun _ h => by simp [bytesLe] at h
  | a :: as, b :: bs, c :: cs => by
    intro h1 h2
    simp only [bytesLe] at h1 h2 ⊢
    rcases Nat.lt_trichotomy a b with h | h | h
    · rcases Nat.lt_trichotomy b c with h' | h' | h'
      · rw [if_pos (h.trans h')]
      · subst h'; rw [if_pos h]
      · rw [if_neg (by omega), if_neg (by omega)] at h2; exact absurd h2 (by simp)
    · subst h
      rcases Nat.lt_trichotomy a c with h' | h' | h'
      · rw [if_pos h']
      · subst h'
        simp only [Nat.lt_irrefl, if_false, if_true] at h1 h2 ⊢
        exact bytesLe_trans as bs cs h1 h2
      · rw [if_neg (by omega), if_neg (by omega)] at h2; exact absurd h2 (by simp)
    · rw [if_neg (by omega), if_neg (by omega)] at h1; exact absurd h1 (by simp)

theorem bytesLe_antisymm : ∀ a b : List Nat, bytesLe a b = true → bytesLe b a = true → a = b
  | [], [] => fun _ _ => rfl
  | [], _ :: _ => fun _ h => by simp [bytesLe] at h
  | _ :: _, [] => fun h => by simp [bytesLe] at h
  | a :: as, b :: bs => by
    intro h1 h2
    simp only [bytesLe] at h1 h2
    rcases Nat.lt_trichotomy a b with h | h | h
    · rw [if_neg (by omega), if_neg (by omega)] at h2; exact absurd h2 (by simp)
    · subst h
      simp only [Nat.lt_irrefl, if_false, if_true] at h1 h2
      rw [bytesLe_antisymm as bs h1 h2]
    · rw [if_neg (by omega), if_neg (by omega)] at h1; exact absurd h1 (by simp)

instance : Std.Total (fun a b : List Nat => bytesLe a b = true) := ⟨bytesLe_total⟩
instance : IsTrans (List Nat) (fun a b : List Nat => bytesLe a b = true) := ⟨bytesLe_trans⟩

theorem sortKeys_sorted (l : List (List Nat)) : (sortKeys l).Pairwise fun a b => bytesLe a b = true :=
  List.pairwise_insertionSort _ l

/-- The terms of the block written for `m` are in ascending order of wires. -/
def Ascending (fs : Nat) (m : CMap Nat) : Prop :=
  ∃ terms : CMap Nat, terms.Perm m ∧ terms.Pairwise (fun s t => s.1 < t.1) ∧ (linearBlock (byteKeys m) fs).1 = layout fs terms

/-- **C39** (part): if all wires are below 256, the terms are written in ascending order.  Missing: larger wires, where it is
false (`C39_violated`). -/
theorem C39_ascending_partial (field : Int) (hf : 0 < field) (m : CMap Nat) (h : FitsMap field m) (hs : ∀ e ∈ m, e.1 < 256) :
    Ascending (fieldSize field) m := by
  refine ⟨numKeys (blockEntries m), ?_, ?_, ?_⟩
  · rw [numKeys_blockEntries h.1]; exact blockEntries_perm h.1
  · rw [numKeys_blockEntries h.1, blockEntries_num h.1, List.pairwise_map]
    have hn : (sortKeys (byteKeys m).keys).Nodup := by
      rw [(sortKeys_perm _).nodup_iff, byteKeys_eq h.1]
      exact wf_rename toBytesLE h.1 fun x _ y _ h => toBytesLE_inj h
    refine (List.Pairwise.and (sortKeys_sorted _) hn).imp_of_mem ?_
    intro a b ha hb hab
    obtain ⟨e, he, rfl, -⟩ := mem_byteKeys h.1 ha
    obtain ⟨e', he', rfl, -⟩ := mem_byteKeys h.1 hb
    have one : ∀ n, n < 256 → toBytesLE n = [n] := by
      intro n hn
      rw [toBytesLE]
      split
      · rename_i h; rw [h]
      · rename_i h; exact Nat.digits_of_lt 256 n h hn
    rw [from_toBytesLE, from_toBytesLE]
    rw [one _ (hs e he), one _ (hs e' he')] at hab
    simp only [bytesLe] at hab
    obtain ⟨h1, h2⟩ := hab
    have : e.1 ≠ e'.1 := fun h => h2 (by rw [h])
    by_contra hlt
    rw [if_neg hlt, if_neg this] at h1
    exact absurd h1 (by simp)
  · rw [linearBlock_eq]
    exact blockBytes_layout hf h

example : Ascending (fieldSize 101) [(200, 3), (7, 1), (0, 100)] :=
  C39_ascending_partial 101 (by decide) _ ⟨by decide, by decide, by decide⟩ (by decide)

/-- **C39** is violated: the terms are sorted by the little-endian byte strings of the wires, so wire 256 is written before
wire 1. -/
theorem C39_violated : ∃ m : CMap Nat, FitsMap 101 m ∧ ¬ Ascending (fieldSize 101) m := by
  refine ⟨[(1, 5), (256, 6)], ⟨by decide, by decide, by decide⟩, ?_⟩
  rintro ⟨terms, hp, hs, he⟩
  have ht : terms = [(1, 5), (256, 6)] :=
    List.Perm.eq_of_pairwise (le := fun s t : Nat × Int => s.1 < t.1) (fun a b _ _ h1 h2 => absurd h1 (by omega)) hs (by simp) hp
  subst ht
  revert he
  decide +kernel

/-! ## C56 -/

theorem blockBytes_perm {m m' : CMap Nat} (hw : m.WF) (hp : m'.Perm m) (fs : Nat) :
    blockBytes (byteKeys m) fs = blockBytes (byteKeys m') fs := by
  have hw' : m'.WF := ((hp.map Prod.fst).nodup_iff).2 hw
  have hk : (byteKeys m').Perm (byteKeys m) := by rw [byteKeys_eq hw, byteKeys_eq hw']; exact hp.map _
  have wk : (byteKeys m).WF := by rw [byteKeys_eq hw]; exact wf_rename toBytesLE hw fun x _ y _ h => toBytesLE_inj h
  have wk' : (byteKeys m').WF := ((hk.map Prod.fst).nodup_iff).2 wk
  have hs : sortKeys (byteKeys m).keys = sortKeys (byteKeys m').keys :=
    List.Perm.eq_of_pairwise (le := fun a b : List Nat => bytesLe a b = true) (fun a b _ _ h1 h2 => bytesLe_antisymm a b h1 h2)
      (sortKeys_sorted _) (sortKeys_sorted _)
      ((sortKeys_perm _).trans (((hk.map Prod.fst).symm).trans (sortKeys_perm _).symm))
  have hg : ∀ k, (byteKeys m).get k = (byteKeys m').get k := by
    intro k
    cases h : (byteKeys m).get k with
    | some v => exact (CMap.get_of_mem wk' (hk.mem_iff.2 (CMap.get_mem h))).symm
    | none =>
      cases h' : (byteKeys m').get k with
      | none => rfl
      | some v =>
        rw [CMap.get_of_mem wk (hk.mem_iff.1 (CMap.get_mem h'))] at h
        exact absurd h (by simp)
  unfold blockBytes
  rw [hs, hk.length_eq]
  simp only [hg]

theorem writeConstraint_perm {c c' : Triple} (h1 : c.1.WF) (h2 : c.2.1.WF) (h3 : c.2.2.WF) (p1 : c'.1.Perm c.1)
    (p2 : c'.2.1.Perm c.2.1) (p3 : c'.2.2.Perm c.2.2) (s : Sec) : writeConstraint s c = writeConstraint s c' := by
  simp only [writeConstraint, linearBlock_eq, blockBytes_perm h1 p1, blockBytes_perm h2 p2, blockBytes_perm h3 p3]

/-- **C56**: the bytes of the file depend only on the contents of the hash maps, not on their iteration order. -/
theorem C56_deterministic (d d' : Data) (hh : d.header = d'.header) (hs : d.signals = d'.signals) (hc : d.custom = d'.custom)
    (hm : List.Forall₂ (fun c c' => (c.1.WF ∧ c.2.1.WF ∧ c.2.2.WF) ∧ c'.1.Perm c.1 ∧ c'.2.1.Perm c.2.1 ∧ c'.2.2.Perm c.2.2)
      d.constraints d'.constraints) : writeFile d = writeFile d' := by
  obtain ⟨header, cs, signals, custom⟩ := d
  obtain ⟨header', cs', signals', custom'⟩ := d'
  dsimp only at hh hs hc hm
  subst hh hs hc
  have key : ∀ s : Sec, cs.foldl writeConstraint s = cs'.foldl writeConstraint s := by
    induction hm with
    | nil => intro s; rfl
    | cons h _ ih =>
      intro s
      obtain ⟨⟨h1, h2, h3⟩, p1, p2, p3⟩ := h
      rw [List.foldl_cons, List.foldl_cons, writeConstraint_perm h1 h2 h3 p1 p2 p3 s]
      exact ih _
  unfold writeFile
  simp only [key]

example : writeFile sample = writeFile { sample with constraints := [([(0, 3), (1, 2)], [(2, 1)], [(1, 2305843009213693950)])] } :=
  C56_deterministic _ _ rfl rfl rfl
    (.cons ⟨⟨by decide, by decide, by decide⟩, List.Perm.swap _ _ _, List.Perm.refl _, List.Perm.refl _⟩ .nil)

end Verif.Props.R1cs
