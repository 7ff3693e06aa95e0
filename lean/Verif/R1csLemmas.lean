import Verif.R1cs
import Verif.BytesLemmas
import Verif.AlgebraLemmas

/-! Lemmas about the constraint file writer and reader. -/

namespace Verif.R1cs
open Verif.Bytes Verif.Algebra
set_option linter.unusedSectionVars false
set_option linter.unusedSimpArgs false

/-! ## Encodings -/

theorem asBytes_eq (x : Int) (w : Nat) : asBytes x w = (bigintAsBytes x w, (bigintAsBytes x w).length) := rfl

/-- The bytes of a linear combination block. -/
def blockBytes (m : CMap (List Nat)) (fs : Nat) : List Nat :=
  bigintAsBytes m.length 4 ++ (sortKeys m.keys).flatMap fun id => intoFormat id 4 ++ bigintAsBytes ((CMap.get m id).getD 0) fs

theorem linearBlock_eq (m : CMap (List Nat)) (fs : Nat) : linearBlock m fs = (blockBytes m fs, (blockBytes m fs).length) := by
  unfold linearBlock blockBytes
  have key : ∀ (l : List (List Nat)) (acc : List Nat × Nat), acc.2 = acc.1.length →
      l.foldl (fun acc id => (acc.1 ++ (termBytes m fs id).1, acc.2 + (termBytes m fs id).2)) acc =
        (acc.1 ++ l.flatMap (fun id => intoFormat id 4 ++ bigintAsBytes ((CMap.get m id).getD 0) fs),
          (acc.1 ++ l.flatMap (fun id => intoFormat id 4 ++ bigintAsBytes ((CMap.get m id).getD 0) fs)).length) := by
    intro l
    induction l with
    | nil => intro acc h; simp [← h]
    | cons id l ih =>
      intro acc h
      rw [List.foldl_cons, ih]
      · simp [termBytes, format, asBytes_eq]
      · simp [termBytes, format, asBytes_eq, h]
  rw [key]
  · rfl
  · rfl

/-- The bytes of a constraint. -/
def tripleBytes (fs : Nat) (c : Triple) : List Nat :=
  blockBytes (byteKeys c.1) fs ++ blockBytes (byteKeys c.2.1) fs ++ blockBytes (byteKeys c.2.2) fs

def headerBytes (fs : Nat) (d : Header) : List Nat :=
  bigintAsBytes fs 4 ++ bigintAsBytes d.field fs ++ bigintAsBytes d.totalWires 4 ++ bigintAsBytes d.publicOutputs 4 ++
    bigintAsBytes d.publicInputs 4 ++ bigintAsBytes d.privateInputs 4 ++ bigintAsBytes d.labels 8 ++ bigintAsBytes d.constraints 4

def usageBytes (fs : Nat) (g : List Nat × List Int) : List Nat :=
  g.1 ++ [0] ++ bigintAsBytes g.2.length 4 ++ g.2.flatMap fun x => bigintAsBytes x fs

def usagesBytes (fs : Nat) (l : List (List Nat × List Int)) : List Nat := bigintAsBytes l.length 4 ++ l.flatMap (usageBytes fs)

def applicationBytes (g : Nat × List Nat) : List Nat :=
  bigintAsBytes g.1 4 ++ bigintAsBytes g.2.length 4 ++ g.2.flatMap fun (x : Nat) => bigintAsBytes x 8

def applicationsBytes (l : List (Nat × List Nat)) : List Nat := bigintAsBytes l.length 4 ++ l.flatMap applicationBytes

/-! ## Sections -/

/-- A section under construction: what has been written so far. -/
def Wrote (s : Sec) (pre : List Nat) (t fs : Nat) (body : List Nat) : Prop :=
  s.file = pre ++ sectionType t ++ placeHolder ++ body ∧ s.goBack = (pre ++ sectionType t).length ∧ s.size = body.length ∧
    s.fieldSize = fs

theorem wrote_start (pre : List Nat) (fs t : Nat) : Wrote (startSection pre fs t) pre t fs [] := by
  simp [Wrote, startSection]

theorem Wrote.write {s : Sec} {pre : List Nat} {t fs : Nat} {body : List Nat} (h : Wrote s pre t fs body) (w : List Nat) :
    Wrote (s.write (w, w.length)) pre t fs (body ++ w) := by
  obtain ⟨h1, h2, h3, h4⟩ := h
  exact ⟨by simp [Sec.write, h1], h2, by simp [Sec.write, h3], h4⟩

theorem Wrote.foldl {α : Type} {pre : List Nat} {t fs : Nat} (f : Sec → α → Sec) (enc : α → List Nat)
    (step : ∀ s body x, Wrote s pre t fs body → Wrote (f s x) pre t fs (body ++ enc x)) (l : List α) :
    ∀ s body, Wrote s pre t fs body → Wrote (l.foldl f s) pre t fs (body ++ l.flatMap enc) := by
  induction l with
  | nil => intro s body h; simpa using h
  | cons x l ih =>
    intro s body h
    rw [List.foldl_cons, List.flatMap_cons, ← List.append_assoc]
    exact ih _ _ (step s body x h)

theorem wrote_constraint {s : Sec} {pre : List Nat} {t fs : Nat} {body : List Nat} (h : Wrote s pre t fs body) (c : Triple) :
    Wrote (writeConstraint s c) pre t fs (body ++ tripleBytes fs c) := by
  obtain ⟨h1, h2, h3, h4⟩ := h
  subst h4
  exact ⟨by simp [writeConstraint, linearBlock_eq, tripleBytes, h1], h2,
    by simp [writeConstraint, linearBlock_eq, tripleBytes, h3]; omega, rfl⟩

theorem Wrote.fieldSize {s : Sec} {pre : List Nat} {t fs : Nat} {body : List Nat} (h : Wrote s pre t fs body) :
    s.fieldSize = fs := h.2.2.2

theorem wrote_header {s : Sec} {pre : List Nat} {t fs : Nat} (h : Wrote s pre t fs []) (d : Header) :
    Wrote (writeHeader s d) pre t fs (headerBytes fs d) := by
  have e := h.fieldSize
  subst e
  have := (((((((h.write (bigintAsBytes s.fieldSize 4)).write (bigintAsBytes d.field s.fieldSize)).write
    (bigintAsBytes d.totalWires 4)).write (bigintAsBytes d.publicOutputs 4)).write (bigintAsBytes d.publicInputs 4)).write
    (bigintAsBytes d.privateInputs 4)).write (bigintAsBytes d.labels 8)).write (bigintAsBytes d.constraints 4)
  have h2 : Wrote (writeHeader s d) pre t s.fieldSize _ := this
  simpa [headerBytes] using h2

theorem wrote_signal {s : Sec} {pre : List Nat} {t fs : Nat} {body : List Nat} (h : Wrote s pre t fs body) (x : Nat) :
    Wrote (writeSignal s x) pre t fs (body ++ bigintAsBytes x 8) := h.write _

theorem wrote_usage {s : Sec} {pre : List Nat} {t fs : Nat} {body : List Nat} (h : Wrote s pre t fs body)
    (g : List Nat × List Int) : Wrote (writeUsage s g) pre t fs (body ++ usageBytes fs g) := by
  have h1 := (h.write (g.1 ++ [0])).write (bigintAsBytes g.2.length 4)
  have h2 := Wrote.foldl (fun s p => s.write (asBytes p s.fieldSize)) (fun x => bigintAsBytes x fs)
    (fun s body x hs => by rw [hs.fieldSize]; exact hs.write _) g.2 _ _ h1
  simpa [writeUsage, usageBytes, asBytes_eq] using h2

theorem wrote_usages {s : Sec} {pre : List Nat} {t fs : Nat} (h : Wrote s pre t fs []) (l : List (List Nat × List Int)) :
    Wrote (writeUsages s l) pre t fs (usagesBytes fs l) := by
  have h1 := h.write (bigintAsBytes l.length 4)
  have h2 := Wrote.foldl writeUsage (usageBytes fs) (fun s body x hs => wrote_usage hs x) l _ _ h1
  simpa [writeUsages, usagesBytes, asBytes_eq] using h2

theorem wrote_application {s : Sec} {pre : List Nat} {t fs : Nat} {body : List Nat} (h : Wrote s pre t fs body)
    (g : Nat × List Nat) : Wrote (writeApplication s g) pre t fs (body ++ applicationBytes g) := by
  have h1 := (h.write (bigintAsBytes g.1 4)).write (bigintAsBytes g.2.length 4)
  have h2 := Wrote.foldl (fun s (x : Nat) => s.write (asBytes x 8)) (fun (x : Nat) => bigintAsBytes x 8)
    (fun s body x hs => hs.write _) g.2 _ _ h1
  simpa [writeApplication, applicationBytes, asBytes_eq] using h2

theorem wrote_applications {s : Sec} {pre : List Nat} {t fs : Nat} (h : Wrote s pre t fs []) (l : List (Nat × List Nat)) :
    Wrote (writeApplications s l) pre t fs (applicationsBytes l) := by
  have h1 := h.write (bigintAsBytes l.length 4)
  have h2 := Wrote.foldl writeApplication applicationBytes (fun s body x hs => wrote_application hs x) l _ _ h1
  simpa [writeApplications, applicationsBytes, asBytes_eq] using h2

/-- A finished section. -/
def sectionBytes (t : Nat) (body : List Nat) : List Nat := sectionType t ++ bigintAsBytes body.length 8 ++ body

theorem Wrote.finish {s : Sec} {pre : List Nat} {t fs : Nat} {body : List Nat} (h : Wrote s pre t fs body)
    (hl : body.length < 256 ^ 8) : s.finish = pre ++ sectionBytes t body := by
  obtain ⟨h1, h2, h3, -⟩ := h
  have hb : (bigintAsBytes (body.length : Int) 8).length = 8 := length_natAsBytes (by decide) hl
  unfold Sec.finish writeAt sectionBytes
  rw [asBytes_eq, h3, h1, h2]
  simp only [hb]
  rw [List.append_assoc (pre ++ sectionType t), List.take_left, ← List.drop_drop, List.drop_left,
    show (8 : Nat) = placeHolder.length from rfl, List.drop_left]
  simp

theorem Wrote.length_le {s : Sec} {pre : List Nat} {t fs : Nat} {body : List Nat} (h : Wrote s pre t fs body) :
    pre.length + body.length ≤ s.finish.length := by
  obtain ⟨h1, h2, -, -⟩ := h
  unfold Sec.finish writeAt
  have e : s.file.length = s.goBack + 8 + body.length := by rw [h1, h2]; simp [placeHolder]; omega
  have e2 : s.goBack = pre.length + 4 := by rw [h2]; simp [sectionType]
  simp only [List.length_append, List.length_take, List.length_drop]
  omega

/-- The sections of a file, in order. -/
def sectionsOf (d : Data) : List (Nat × List Nat) :=
  let fs := fieldSize d.header.field
  [(2, d.constraints.flatMap (tripleBytes fs)), (1, headerBytes fs d.header), (3, d.signals.flatMap fun (x : Nat) => bigintAsBytes x 8)] ++
    (match d.custom with
    | none => []
    | some (used, applied) => [(4, usagesBytes fs used), (5, applicationsBytes applied)])

theorem writeFile_eq {d : Data} (h : (writeFile d).length < 2 ^ 63) :
    writeFile d = newFile d.custom.isSome ++ (sectionsOf d).flatMap (fun e => sectionBytes e.1 e.2) := by
  obtain ⟨header, constraints, signals, custom⟩ := d
  have hp : (2 : Nat) ^ 63 < 256 ^ 8 := by decide
  set fs := fieldSize header.field with hfs
  have w2 : ∀ file, Wrote (constraints.foldl writeConstraint (startSection file fs 2)) file 2 fs
      (constraints.flatMap (tripleBytes fs)) := fun file => by
    simpa using Wrote.foldl writeConstraint (tripleBytes fs) (fun s body x hs => wrote_constraint hs x) constraints _ _
      (wrote_start file fs 2)
  have w1 : ∀ file, Wrote (writeHeader (startSection file fs 1) header) file 1 fs (headerBytes fs header) :=
    fun file => wrote_header (wrote_start file fs 1) header
  have w3 : ∀ file, Wrote (signals.foldl writeSignal (startSection file fs 3)) file 3 fs
      (signals.flatMap fun (x : Nat) => bigintAsBytes x 8) := fun file => by
    simpa using Wrote.foldl writeSignal (fun (x : Nat) => bigintAsBytes x 8) (fun s body x hs => wrote_signal hs x) signals _ _
      (wrote_start file fs 3)
  cases custom with
  | none =>
    simp only [writeFile, ← hfs] at h ⊢
    have l3 := (w3 _).length_le.trans_lt h
    have l1 := (w1 _).length_le.trans_lt (lt_of_le_of_lt (Nat.le_add_right _ _) l3)
    have l2 := (w2 _).length_le.trans_lt (lt_of_le_of_lt (Nat.le_add_right _ _) l1)
    rw [(w3 _).finish (by omega), (w1 _).finish (by omega), (w2 _).finish (by omega)]
    simp [sectionsOf, ← hfs]
  | some ua =>
    obtain ⟨used, applied⟩ := ua
    have w4 : ∀ file, Wrote (writeUsages (startSection file fs 4) used) file 4 fs (usagesBytes fs used) :=
      fun file => wrote_usages (wrote_start file fs 4) used
    have w5 : ∀ file, Wrote (writeApplications (startSection file fs 5) applied) file 5 fs (applicationsBytes applied) :=
      fun file => wrote_applications (wrote_start file fs 5) applied
    simp only [writeFile, ← hfs] at h ⊢
    have l5 := (w5 _).length_le.trans_lt h
    have l4 := (w4 _).length_le.trans_lt (lt_of_le_of_lt (Nat.le_add_right _ _) l5)
    have l3 := (w3 _).length_le.trans_lt (lt_of_le_of_lt (Nat.le_add_right _ _) l4)
    have l1 := (w1 _).length_le.trans_lt (lt_of_le_of_lt (Nat.le_add_right _ _) l3)
    have l2 := (w2 _).length_le.trans_lt (lt_of_le_of_lt (Nat.le_add_right _ _) l1)
    rw [(w5 _).finish (by omega), (w4 _).finish (by omega), (w3 _).finish (by omega), (w1 _).finish (by omega),
      (w2 _).finish (by omega)]
    simp [sectionsOf, ← hfs]

/-! ## Reading back -/

/-- Reading `bytes` anywhere in a file yields `x` and moves behind them. -/
def Reads {α : Type} (f : List Nat → Nat → Except RErr (α × Nat)) (bytes : List Nat) (x : α) : Prop :=
  ∀ pre post, f (pre ++ bytes ++ post) pre.length = .ok (x, pre.length + bytes.length)

theorem reads_exact (b : List Nat) : Reads (fun file pos => readExact file pos b.length) b b := by
  intro pre post
  simp [readExact]

theorem Reads.bind {α β : Type} {f : List Nat → Nat → Except RErr (α × Nat)} {g : α → List Nat → Nat → Except RErr (β × Nat)}
    {b b' : List Nat} {x : α} {y : β} (h : Reads f b x) (h' : Reads (g x) b' y) :
    Reads (fun file pos => f file pos >>= fun r => g r.1 file r.2) (b ++ b') y := by
  intro pre post
  have h1 := h pre (b' ++ post)
  have h2 := h' (pre ++ b) post
  have e : pre ++ (b ++ b') ++ post = pre ++ b ++ (b' ++ post) := by simp
  have e2 : pre ++ (b ++ b') ++ post = pre ++ b ++ b' ++ post := by simp
  show (f (pre ++ (b ++ b') ++ post) pre.length >>= fun r => g r.1 (pre ++ (b ++ b') ++ post) r.2) = _
  rw [show f (pre ++ (b ++ b') ++ post) pre.length = .ok (x, pre.length + b.length) by rw [e]; exact h1]
  show g x (pre ++ (b ++ b') ++ post) (pre.length + b.length) = _
  rw [e2, show pre.length + b.length = (pre ++ b).length by simp, h2]
  simp [Nat.add_assoc]

theorem Reads.pure {α β : Type} {f : List Nat → Nat → Except RErr (α × Nat)} {b : List Nat} {x : α} (h : Reads f b x)
    (g : α → β) : Reads (fun file pos => f file pos >>= fun r => .ok (g r.1, r.2)) b (g x) := by
  intro pre post
  show (f (pre ++ b ++ post) pre.length >>= fun r => Except.ok (g r.1, r.2)) = _
  rw [h pre post]
  rfl

theorem reads_int {b : List Nat} {n : Nat} (hb : b.length = n) : Reads (fun file pos => readInt file pos n) b (fromBytesLE b) := by
  subst hb
  exact (reads_exact b).pure fromBytesLE

theorem reads_nat {x w : Nat} (hw : 0 < w) (h : x < 256 ^ w) :
    Reads (fun file pos => readInt file pos w) (bigintAsBytes (x : Int) w) x := by
  have := reads_int (length_natAsBytes hw h)
  rwa [from_natAsBytes] at this

theorem reads_many {α β : Type} {item : List Nat → Nat → Except RErr (β × Nat)} {enc : α → List Nat} {dec : α → β}
    (l : List α) (h : ∀ x ∈ l, Reads item (enc x) (dec x)) :
    Reads (fun file pos => readMany (item file) l.length pos) (l.flatMap enc) (l.map dec) := by
  induction l with
  | nil => intro pre post; simp [readMany]
  | cons x l ih =>
    have h1 := h x List.mem_cons_self
    have h2 := (ih fun y hy => h y (List.mem_cons_of_mem _ hy)).pure (fun ys => dec x :: ys)
    exact h1.bind (g := fun y file pos => readMany (item file) l.length pos >>= fun r => .ok (y :: r.1, r.2)) h2

theorem reads_terms {fs : Nat} (hfs : 0 < fs) (E : CMap (List Nat)) :
    ∀ m : CMap (List Nat), (∀ e ∈ E, e.1.length = 4 ∧ 0 ≤ e.2 ∧ e.2 < 256 ^ fs) →
      Reads (fun file pos => readTerms file fs E.length pos m) (E.flatMap fun e => e.1 ++ bigintAsBytes e.2 fs)
        (E.foldl (fun acc e => CMap.insert acc e.1 e.2) m) := by
  induction E with
  | nil => intro m _ pre post; simp [readTerms]
  | cons e E ih =>
    intro m h
    obtain ⟨h1, h2, h3⟩ := h e List.mem_cons_self
    have r1 := reads_exact e.1
    rw [h1] at r1
    have r2 := reads_int (length_bigintAsBytes hfs h2 h3)
    have r3 := ih (CMap.insert m e.1 e.2) fun x hx => h x (List.mem_cons_of_mem _ hx)
    rw [List.flatMap_cons, List.append_assoc]
    refine r1.bind (g := fun id file pos => readInt file pos fs >>= fun r =>
      readTerms file fs E.length r.2 (CMap.insert m id r.1)) ?_
    refine r2.bind (g := fun (x : Nat) file pos => readTerms file fs E.length pos (CMap.insert m e.1 x)) ?_
    rw [from_bigintAsBytes fs h2]
    exact r3

theorem sortKeys_perm (l : List (List Nat)) : (sortKeys l).Perm l := List.perm_insertionSort _ _

theorem byteKeys_eq {m : CMap Nat} (hw : m.WF) : byteKeys m = m.map fun e => (toBytesLE e.1, e.2) := by
  unfold byteKeys
  rw [foldl_insert_rename toBytesLE m [] hw (fun x _ y _ h => toBytesLE_inj h) (by simp [CMap.keys])]
  rfl

theorem map_get_self {K : Type} [DecidableEq K] {m : CMap K} (hw : m.WF) :
    m.map (fun e => (e.1, (m.get e.1).getD 0)) = m := by
  conv_rhs => rw [← List.map_id m]
  refine List.map_congr_left fun e he => ?_
  rw [CMap.get_of_mem hw (k := e.1) (v := e.2) he]
  rfl

/-- The entries a block is read back to. -/
def blockEntries (m : CMap Nat) : CMap (List Nat) :=
  (sortKeys (byteKeys m).keys).map fun id => (intoFormat id 4, (CMap.get (byteKeys m) id).getD 0)

theorem mem_byteKeys {m : CMap Nat} (hw : m.WF) {id : List Nat} (h : id ∈ sortKeys (byteKeys m).keys) :
    ∃ e ∈ m, id = toBytesLE e.1 ∧ (CMap.get (byteKeys m) id).getD 0 = e.2 := by
  rw [(sortKeys_perm _).mem_iff, byteKeys_eq hw] at h
  simp only [CMap.keys, List.map_map, List.mem_map, Function.comp] at h
  obtain ⟨e, he, rfl⟩ := h
  refine ⟨e, he, rfl, ?_⟩
  rw [byteKeys_eq hw, get_rename toBytesLE m e.1 (fun x _ h => toBytesLE_inj h), CMap.get_of_mem hw (k := e.1) (v := e.2) he]
  rfl

theorem blockEntries_num {m : CMap Nat} (hw : m.WF) :
    (blockEntries m).map (fun e => (fromBytesLE e.1, e.2)) =
      (sortKeys (byteKeys m).keys).map fun id => (fromBytesLE id, (CMap.get (byteKeys m) id).getD 0) := by
  unfold blockEntries
  rw [List.map_map]
  exact List.map_congr_left fun id _ => by simp [from_intoFormat]

theorem blockEntries_perm {m : CMap Nat} (hw : m.WF) :
    ((blockEntries m).map (fun e => (fromBytesLE e.1, e.2))).Perm m := by
  rw [blockEntries_num hw]
  refine ((sortKeys_perm _).map _).trans (List.Perm.of_eq ?_)
  conv_rhs => rw [← map_get_self hw]
  have : (byteKeys m).keys = m.map fun e => toBytesLE e.1 := by rw [byteKeys_eq hw]; simp [CMap.keys, Function.comp_def]
  rw [this, List.map_map]
  refine List.map_congr_left fun e _ => ?_
  simp only [Function.comp]
  rw [from_toBytesLE, byteKeys_eq hw, get_rename toBytesLE m e.1 (fun x _ h => toBytesLE_inj h)]

theorem blockEntries_numKeys_nodup {m : CMap Nat} (hw : m.WF) : ((blockEntries m).map fun e => fromBytesLE e.1).Nodup := by
  have h : (((blockEntries m).map (fun e => (fromBytesLE e.1, e.2))).map Prod.fst).Nodup := by
    rw [((blockEntries_perm hw).map Prod.fst).nodup_iff]
    exact hw
  simpa [Function.comp_def] using h

theorem blockEntries_wf {m : CMap Nat} (hw : m.WF) : (blockEntries m).WF := by
  have h := blockEntries_numKeys_nodup hw
  have e : ((blockEntries m).map fun e => fromBytesLE e.1) = (blockEntries m).keys.map fromBytesLE := by
    simp [CMap.keys, Function.comp_def]
  rw [e] at h
  exact List.Nodup.of_map _ h

theorem foldl_insert_self {K : Type} [DecidableEq K] {m : CMap K} (hw : m.WF) :
    m.foldl (fun acc e => CMap.insert acc e.1 e.2) [] = m := by
  have := foldl_insert_rename (fun x : K => x) m [] hw (fun x _ y _ h => h) (by simp [CMap.keys])
  simpa using this

theorem numKeys_blockEntries {m : CMap Nat} (hw : m.WF) :
    numKeys (blockEntries m) = (blockEntries m).map fun e => (fromBytesLE e.1, e.2) := by
  unfold numKeys
  rw [foldl_insert_rename fromBytesLE _ [] (blockEntries_wf hw) ?_ (by simp [CMap.keys])]
  · rfl
  · intro x hx y hy h
    have e : ((blockEntries m).map fun e => fromBytesLE e.1) = (blockEntries m).keys.map fromBytesLE := by
      simp [CMap.keys, Function.comp_def]
    exact List.inj_on_of_nodup_map (e ▸ blockEntries_numKeys_nodup hw) hx hy h

theorem reads_block {fs : Nat} (hfs : 0 < fs) {m : CMap Nat} (hw : m.WF) (hl : m.length < 256 ^ 4)
    (hm : ∀ e ∈ m, e.1 < 256 ^ 4 ∧ 0 ≤ e.2 ∧ e.2 < 256 ^ fs) :
    Reads (fun file pos => readBlock file fs pos) (blockBytes (byteKeys m) fs) (blockEntries m) := by
  have hlen : (byteKeys m).length = m.length := by rw [byteKeys_eq hw]; simp
  have hE : (blockEntries m).length = m.length := by
    simpa using (blockEntries_perm hw).length_eq
  have r1 : Reads (fun file pos => readInt file pos 4) (bigintAsBytes ((byteKeys m).length : Nat) 4) (blockEntries m).length := by
    rw [hlen, hE]
    exact reads_nat (by decide) hl
  have r2 := reads_terms hfs (blockEntries m) [] (by
    intro e he
    unfold blockEntries at he
    rw [List.mem_map] at he
    obtain ⟨id, hid, rfl⟩ := he
    obtain ⟨e, he, rfl, h2⟩ := mem_byteKeys hw hid
    obtain ⟨a, b, c⟩ := hm e he
    dsimp only
    rw [h2]
    exact ⟨length_intoFormat (length_toBytesLE (by decide) a), b, c⟩)
  rw [foldl_insert_self (blockEntries_wf hw)] at r2
  have := r1.bind (g := fun n file pos => readTerms file fs n pos []) r2
  have e : blockBytes (byteKeys m) fs = bigintAsBytes ((byteKeys m).length : Nat) 4 ++
      (blockEntries m).flatMap fun e => e.1 ++ bigintAsBytes e.2 fs := by
    unfold blockBytes blockEntries
    rw [List.flatMap_map]
  rw [e]
  exact this

/-- What the reader returns for a constraint. -/
def readBack (c : Triple) : Triple :=
  (numKeys (blockEntries c.1), numKeys (blockEntries c.2.1), numKeys (blockEntries c.2.2))

/-- A linear combination fits the format. -/
def FitsMap (field : Int) (m : CMap Nat) : Prop :=
  m.WF ∧ m.length < 2 ^ 32 ∧ ∀ e ∈ m, e.1 < 2 ^ 32 ∧ 0 ≤ e.2 ∧ e.2 < field

theorem lt_pow_fieldSize {field : Int} (h : 0 < field) : field < 256 ^ fieldSize field ∧ 0 < fieldSize field := by
  have h1 : field.natAbs < 2 ^ field.natAbs.size := Nat.lt_size_self _
  have h0 : 0 < field.natAbs.size := Nat.size_pos.2 (by omega)
  have hle : field.natAbs.size ≤ 8 * fieldSize field := by
    unfold fieldSize
    dsimp only
    split <;> omega
  constructor
  · have h2 : field.natAbs < 256 ^ fieldSize field := by
      calc field.natAbs < 2 ^ field.natAbs.size := h1
        _ ≤ 2 ^ (8 * fieldSize field) := Nat.pow_le_pow_right (by decide) hle
        _ = 256 ^ fieldSize field := by rw [Nat.pow_mul]
    have h3 : ((field.natAbs : Nat) : Int) < ((256 ^ fieldSize field : Nat) : Int) := Int.ofNat_lt.2 h2
    rw [Int.natAbs_of_nonneg h.le] at h3
    simpa using h3
  · omega

theorem reads_triple {field : Int} (hf : 0 < field) {c : Triple} (ha : FitsMap field c.1) (hb : FitsMap field c.2.1)
    (hc : FitsMap field c.2.2) :
    Reads (fun file pos => readConstraint file (fieldSize field) pos) (tripleBytes (fieldSize field) c) (readBack c) := by
  obtain ⟨hp, hfs⟩ := lt_pow_fieldSize hf
  have go : ∀ m, FitsMap field m → Reads (fun file pos => readBlock file (fieldSize field) pos)
      (blockBytes (byteKeys m) (fieldSize field)) (blockEntries m) := fun m hm =>
    reads_block hfs hm.1 (by simpa using hm.2.1) fun e he => by
      obtain ⟨h1, h2, h3⟩ := hm.2.2 e he
      exact ⟨by simpa using h1, h2, h3.trans hp⟩
  unfold tripleBytes
  rw [List.append_assoc]
  refine (go _ ha).bind (g := fun a file pos => readBlock file (fieldSize field) pos >>= fun r =>
    readBlock file (fieldSize field) r.2 >>= fun s => .ok ((numKeys a, numKeys r.1, numKeys s.1), s.2)) ?_
  refine (go _ hb).bind (g := fun b file pos =>
    readBlock file (fieldSize field) pos >>= fun s => .ok ((numKeys (blockEntries c.1), numKeys b, numKeys s.1), s.2)) ?_
  exact (go _ hc).pure fun x => (numKeys (blockEntries c.1), numKeys (blockEntries c.2.1), numKeys x)

theorem reads_header {d : Header} (hf : 0 < d.field) (hs : fieldSize d.field < 2 ^ 32) (h1 : d.totalWires < 2 ^ 32)
    (h2 : d.publicOutputs < 2 ^ 32) (h3 : d.publicInputs < 2 ^ 32) (h4 : d.privateInputs < 2 ^ 32)
    (h5 : d.labels < 2 ^ 64) (h6 : d.constraints < 2 ^ 32) :
    Reads readHeader (headerBytes (fieldSize d.field) d) (fieldSize d.field, d) := by
  obtain ⟨hp, hfs⟩ := lt_pow_fieldSize hf
  obtain ⟨field, w, o, i, p, l, c⟩ := d
  dsimp only at *
  have n4 : ∀ x : Nat, x < 2 ^ 32 → Reads (fun file pos => readInt file pos 4) (bigintAsBytes (x : Int) 4) x :=
    fun x hx => reads_nat (by decide) (by simpa using hx)
  have n8 : ∀ x : Nat, x < 2 ^ 64 → Reads (fun file pos => readInt file pos 8) (bigintAsBytes (x : Int) 8) x :=
    fun x hx => reads_nat (by decide) (by simpa using hx)
  have rf := reads_int (length_bigintAsBytes hfs hf.le hp)
  have ef : (fromBytesLE (bigintAsBytes field (fieldSize field)) : Int) = field := from_bigintAsBytes _ hf.le
  have := (n4 _ hs).bind (g := fun fs file pos => readInt file pos fs >>= fun f => readInt file f.2 4 >>= fun w =>
      readInt file w.2 4 >>= fun o => readInt file o.2 4 >>= fun i => readInt file i.2 4 >>= fun p =>
      readInt file p.2 8 >>= fun l => readInt file l.2 4 >>= fun c =>
      .ok ((fs, (⟨f.1, w.1, o.1, i.1, p.1, l.1, c.1⟩ : Header)), c.2))
    (rf.bind (g := fun (f : Nat) file pos => readInt file pos 4 >>= fun w =>
      readInt file w.2 4 >>= fun o => readInt file o.2 4 >>= fun i => readInt file i.2 4 >>= fun p =>
      readInt file p.2 8 >>= fun l => readInt file l.2 4 >>= fun c =>
      .ok ((fieldSize field, (⟨f, w.1, o.1, i.1, p.1, l.1, c.1⟩ : Header)), c.2))
    ((n4 w h1).bind (g := fun w file pos =>
      readInt file pos 4 >>= fun o => readInt file o.2 4 >>= fun i => readInt file i.2 4 >>= fun p =>
      readInt file p.2 8 >>= fun l => readInt file l.2 4 >>= fun c =>
      .ok ((fieldSize field, (⟨(fromBytesLE (bigintAsBytes field (fieldSize field)) : Nat), w, o.1, i.1, p.1, l.1, c.1⟩ : Header)), c.2))
    ((n4 o h2).bind (g := fun o file pos =>
      readInt file pos 4 >>= fun i => readInt file i.2 4 >>= fun p =>
      readInt file p.2 8 >>= fun l => readInt file l.2 4 >>= fun c =>
      .ok ((fieldSize field, (⟨(fromBytesLE (bigintAsBytes field (fieldSize field)) : Nat), w, o, i.1, p.1, l.1, c.1⟩ : Header)), c.2))
    ((n4 i h3).bind (g := fun i file pos =>
      readInt file pos 4 >>= fun p =>
      readInt file p.2 8 >>= fun l => readInt file l.2 4 >>= fun c =>
      .ok ((fieldSize field, (⟨(fromBytesLE (bigintAsBytes field (fieldSize field)) : Nat), w, o, i, p.1, l.1, c.1⟩ : Header)), c.2))
    ((n4 p h4).bind (g := fun p file pos =>
      readInt file pos 8 >>= fun l => readInt file l.2 4 >>= fun c =>
      .ok ((fieldSize field, (⟨(fromBytesLE (bigintAsBytes field (fieldSize field)) : Nat), w, o, i, p, l.1, c.1⟩ : Header)), c.2))
    ((n8 l h5).bind (g := fun l file pos => readInt file pos 4 >>= fun c =>
      .ok ((fieldSize field, (⟨(fromBytesLE (bigintAsBytes field (fieldSize field)) : Nat), w, o, i, p, l, c.1⟩ : Header)), c.2))
    ((n4 c h6).pure fun c => (fieldSize field,
      (⟨(fromBytesLE (bigintAsBytes field (fieldSize field)) : Nat), w, o, i, p, l, c⟩ : Header)))))))))
  rw [ef] at this
  unfold headerBytes
  simp only [List.append_assoc] at this ⊢
  exact this

theorem reads_name (name : List Nat) (hz : 0 ∉ name) : ∀ fuel, name.length < fuel →
    Reads (fun file pos => readName file fuel pos) (name ++ [0]) name := by
  induction name with
  | nil =>
    intro fuel hf pre post
    obtain ⟨f, rfl⟩ : ∃ f, fuel = f + 1 := ⟨fuel - 1, by simp at hf; omega⟩
    have h := reads_exact [0] pre post
    simp only [List.length_singleton] at h
    simp only [readName, List.nil_append, h]
    rfl
  | cons x name ih =>
    intro fuel hf pre post
    obtain ⟨f, rfl⟩ : ∃ f, fuel = f + 1 := ⟨fuel - 1, by simp at hf; omega⟩
    rw [List.mem_cons, not_or] at hz
    have h := reads_exact [x] pre (name ++ [0] ++ post)
    have h2 := ih hz.2 f (by simp at hf; omega) (pre ++ [x]) post
    simp only [List.length_singleton] at h
    have e : pre ++ (x :: name ++ [0]) ++ post = pre ++ [x] ++ (name ++ [0] ++ post) := by simp
    have e2 : pre ++ [x] ++ (name ++ [0] ++ post) = pre ++ [x] ++ (name ++ [0]) ++ post := by simp
    simp only [readName]
    rw [e, h]
    show (if [x] = [0] then _ else _) = _
    rw [if_neg (by simpa using Ne.symm hz.1), e2]
    have h3 : readName (pre ++ [x] ++ (name ++ [0]) ++ post) f (pre.length + 1) = .ok (name, pre.length + 1 + (name.length + 1)) := by
      have := h2
      simpa using this
    show (readName _ f (pre.length + 1) >>= _) = _
    rw [h3]
    simp [bind, Except.bind]
    omega

theorem reads_usage {field : Int} (hf : 0 < field) {g : List Nat × List Int} (hz : 0 ∉ g.1) (hl : g.2.length < 2 ^ 32)
    (hp : ∀ x ∈ g.2, 0 ≤ x ∧ x < field) :
    Reads (fun file pos => readUsage file (fieldSize field) pos) (usageBytes (fieldSize field) g) g := by
  obtain ⟨hpw, hfs⟩ := lt_pow_fieldSize hf
  have r3 := reads_many (item := fun file pos => readInt file pos (fieldSize field))
    (enc := fun x => bigintAsBytes x (fieldSize field)) (dec := fun x => fromBytesLE (bigintAsBytes x (fieldSize field))) g.2
    (fun x hx => reads_int (length_bigintAsBytes hfs (hp x hx).1 ((hp x hx).2.trans hpw)))
  have e3 : (g.2.map (fun x => fromBytesLE (bigintAsBytes x (fieldSize field)))).map (fun (x : Nat) => (x : Int)) = g.2 := by
    rw [List.map_map]
    conv_rhs => rw [← List.map_id g.2]
    exact List.map_congr_left fun x hx => from_bigintAsBytes _ (hp x hx).1
  have r2 : Reads (fun file pos => readInt file pos 4) (bigintAsBytes (g.2.length : Int) 4) g.2.length :=
    reads_nat (by decide) (by simpa using hl)
  intro pre post
  have r1 := reads_name g.1 hz ((pre ++ usageBytes (fieldSize field) g ++ post).length + 1) (by simp [usageBytes]; omega)
  have := r1.bind (g := fun name file pos => readInt file pos 4 >>= fun n =>
      readMany (fun pos => readInt file pos (fieldSize field)) n.1 n.2 >>= fun ps =>
      .ok ((name, ps.1.map fun (x : Nat) => (x : Int)), ps.2))
    (r2.bind (g := fun n file pos => readMany (fun pos => readInt file pos (fieldSize field)) n pos >>= fun ps =>
      .ok ((g.1, ps.1.map fun (x : Nat) => (x : Int)), ps.2))
    (r3.pure fun ps => (g.1, ps.map fun (x : Nat) => (x : Int)))) pre post
  rw [e3] at this
  have e : usageBytes (fieldSize field) g = g.1 ++ [0] ++ (bigintAsBytes (g.2.length : Int) 4 ++
      g.2.flatMap fun x => bigintAsBytes x (fieldSize field)) := by simp [usageBytes]
  rw [← e] at this
  exact this

theorem reads_usages {field : Int} (hf : 0 < field) {l : List (List Nat × List Int)} (hn : l.length < 2 ^ 32)
    (h : ∀ g ∈ l, 0 ∉ g.1 ∧ g.2.length < 2 ^ 32 ∧ ∀ x ∈ g.2, 0 ≤ x ∧ x < field) :
    Reads (fun file pos => readUsages file (fieldSize field) pos) (usagesBytes (fieldSize field) l) l := by
  have r1 : Reads (fun file pos => readInt file pos 4) (bigintAsBytes (l.length : Int) 4) l.length :=
    reads_nat (by decide) (by simpa using hn)
  have r2 := reads_many (item := fun file pos => readUsage file (fieldSize field) pos) (dec := fun g => g) l
    (fun g hg => reads_usage hf (h g hg).1 (h g hg).2.1 (h g hg).2.2)
  rw [List.map_id'] at r2
  exact r1.bind (g := fun n file pos => readMany (fun pos => readUsage file (fieldSize field) pos) n pos) r2

theorem reads_application {g : Nat × List Nat} (hi : g.1 < 2 ^ 32) (hl : g.2.length < 2 ^ 32) (hp : ∀ x ∈ g.2, x < 2 ^ 64) :
    Reads readApplication (applicationBytes g) g := by
  have r1 : Reads (fun file pos => readInt file pos 4) (bigintAsBytes (g.1 : Int) 4) g.1 :=
    reads_nat (by decide) (by simpa using hi)
  have r2 : Reads (fun file pos => readInt file pos 4) (bigintAsBytes (g.2.length : Int) 4) g.2.length :=
    reads_nat (by decide) (by simpa using hl)
  have r3 := reads_many (item := fun file pos => readInt file pos 8) (enc := fun (x : Nat) => bigintAsBytes x 8) (dec := fun x => x)
    g.2 (fun x hx => reads_nat (by decide) (by simpa using hp x hx))
  rw [List.map_id'] at r3
  have := r1.bind (g := fun i file pos => readInt file pos 4 >>= fun n =>
      readMany (fun pos => readInt file pos 8) n.1 n.2 >>= fun ps => .ok ((i, ps.1), ps.2))
    (r2.bind (g := fun n file pos => readMany (fun pos => readInt file pos 8) n pos >>= fun ps => .ok ((g.1, ps.1), ps.2))
    (r3.pure fun ps => (g.1, ps)))
  rw [← List.append_assoc] at this
  exact this

theorem reads_applications {l : List (Nat × List Nat)} (hn : l.length < 2 ^ 32)
    (h : ∀ g ∈ l, g.1 < 2 ^ 32 ∧ g.2.length < 2 ^ 32 ∧ ∀ x ∈ g.2, x < 2 ^ 64) :
    Reads readApplications (applicationsBytes l) l := by
  have r1 : Reads (fun file pos => readInt file pos 4) (bigintAsBytes (l.length : Int) 4) l.length :=
    reads_nat (by decide) (by simpa using hn)
  have r2 := reads_many (item := readApplication) (dec := fun g => g) l
    (fun g hg => reads_application (h g hg).1 (h g hg).2.1 (h g hg).2.2)
  rw [List.map_id'] at r2
  exact r1.bind (g := fun n file pos => readMany (readApplication file) n pos) r2

/-! ## Sections of a file -/

theorem reads_section {t : Nat} {body : List Nat} (hl : body.length < 256 ^ 8) (pre post : List Nat) :
    readSection (pre ++ sectionBytes t body ++ post) pre.length t = .ok ((), pre.length + 12) := by
  have h := reads_exact (sectionType t) pre (bigintAsBytes (body.length : Int) 8 ++ body ++ post)
  have e : pre ++ sectionBytes t body ++ post = pre ++ sectionType t ++ (bigintAsBytes (body.length : Int) 8 ++ body ++ post) := by
    simp [sectionBytes]
  unfold readSection
  rw [e]
  have hlen : (sectionType t).length = 4 := rfl
  rw [hlen] at h
  simp only at h
  rw [h]
  show (if sectionType t = sectionType t then _ else _) = _
  rw [if_pos rfl]

/-- A section's body can be read at its place. -/
theorem reads_body {α : Type} {f : List Nat → Nat → Except RErr (α × Nat)} {t : Nat} {body : List Nat} {x : α}
    (hl : body.length < 256 ^ 8) (h : Reads f body x) (pre post : List Nat) :
    f (pre ++ sectionBytes t body ++ post) (pre.length + 12) = .ok (x, pre.length + 12 + body.length) := by
  have hb : (bigintAsBytes (body.length : Int) 8).length = 8 := length_natAsBytes (by decide) hl
  have := h (pre ++ sectionType t ++ bigintAsBytes (body.length : Int) 8) post
  have e : pre ++ sectionBytes t body ++ post = pre ++ sectionType t ++ bigintAsBytes (body.length : Int) 8 ++ body ++ post := by
    simp [sectionBytes]
  rw [e]
  have e2 : (pre ++ sectionType t ++ bigintAsBytes (body.length : Int) 8).length = pre.length + 12 := by
    simp only [List.length_append, hb]; simp [sectionType]
  rw [e2] at this
  exact this

theorem length_sectionBytes {t : Nat} {body : List Nat} (hl : body.length < 256 ^ 8) :
    (sectionBytes t body).length = 12 + body.length := by
  have hb : (bigintAsBytes (body.length : Int) 8).length = 8 := length_natAsBytes (by decide) hl
  simp only [sectionBytes, List.length_append, hb]
  simp [sectionType]

theorem scan_section {t n left : Nat} {body : List Nat} (hl : body.length < 256 ^ 8) (ht : 1 ≤ t ∧ t ≤ n) (pre post : List Nat)
    (starts : List (Nat × Nat)) :
    scan (pre ++ sectionBytes t body ++ post) n (left + 1) pre.length starts =
      scan (pre ++ sectionBytes t body ++ post) n left (pre ++ sectionBytes t body).length ((t, pre.length) :: starts) := by
  have hb : (bigintAsBytes (body.length : Int) 8).length = 8 := length_natAsBytes (by decide) hl
  have h := reads_exact (sectionType t) pre (bigintAsBytes (body.length : Int) 8 ++ body ++ post)
  have h2 := reads_nat (w := 8) (by decide) hl (pre ++ sectionType t) (body ++ post)
  have e : pre ++ sectionBytes t body ++ post = pre ++ sectionType t ++ (bigintAsBytes (body.length : Int) 8 ++ body ++ post) := by
    simp [sectionBytes]
  have e2 : pre ++ sectionBytes t body ++ post = pre ++ sectionType t ++ bigintAsBytes (body.length : Int) 8 ++ (body ++ post) := by
    simp [sectionBytes]
  conv_lhs => unfold scan
  rw [← e] at h
  rw [← e2] at h2
  have hlen : (sectionType t).length = 4 := rfl
  simp only [hlen] at h
  simp only [List.length_append, hlen, hb] at h2
  rw [h]
  show (readInt _ (pre.length + 4) 8 >>= _) = _
  rw [h2]
  show (if 1 ≤ (sectionType t).headD 0 ∧ (sectionType t).headD 0 ≤ n then _ else _) = _
  rw [if_pos (show 1 ≤ (sectionType t).headD 0 ∧ (sectionType t).headD 0 ≤ n from ht), List.length_append, length_sectionBytes hl]
  congr 1
  omega

end Verif.R1cs
