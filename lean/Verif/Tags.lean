import Mathlib.Data.List.Basic

/-!
Model of the propagation of tags: `constraint_generation/src/assignment_utils.rs:13-193`, with the
places of `execute.rs` that call it (981-996, 1725-1739, 2319, 2431, 2531, 2956, 3047).

Maps (`BTreeMap`, `HashMap`) are lists of pairs with distinct keys; the value found for a key is that of
its first occurrence. A tag value is an optional integer.
-/

namespace Verif.Tags

/-- A map as a list of pairs. -/
abbrev Map (A : Type) := List (String × A)

/-- Insertion in a map: `insert`. -/
def ins {A : Type} (k : String) (v : A) : Map A → Map A
  | [] => [(k, v)]
  | (k', v') :: m => if k' = k then (k, v) :: m else (k', v') :: ins k v m

/-- slice_types.rs:10-14. -/
structure TagState where
  isDefined : Bool
  valueDefined : Bool
  deriving DecidableEq, Repr

/-- slice_types.rs:15. -/
abbrev TagInfo := Map (Option Int)

/-- slice_types.rs:16. -/
abbrev TagDefs := Map TagState

/-- Failures: `unwrap` on a missing entry, a subtraction below zero (which stops a checked build and
wraps around in a release build). -/
inductive TagErr where
  | missing | underflow
  deriving DecidableEq, Repr

/-- assignment_utils.rs:37-43, one step of the loop in `compute_propagated_tags`. -/
def propagatedOf (st : TagState) (remaining : Nat) (value : Option Int) : Option (Option Int) :=
  if st.valueDefined || remaining == 0 then some value
  else if st.isDefined then some none
  else none

/-- assignment_utils.rs:30-45, `compute_propagated_tags`. -/
def computePropagated (defs : TagDefs) (remaining : Nat) : TagInfo → TagInfo → Except TagErr TagInfo
  | [], acc => .ok acc
  | (tag, value) :: rest, acc =>
    match defs.lookup tag with
    | none => .error .missing
    | some st =>
      match propagatedOf st remaining value with
      | none => computePropagated defs remaining rest acc
      | some v => computePropagated defs remaining rest (ins tag v acc)

/-- assignment_utils.rs:73-114: what becomes of a tag the signal has, given what the assigned value says
of it; `none` if the tag is dropped. -/
def keepTag (st : TagState) (isInit : Bool) (value : Option Int) (assigned : Option (Option Int)) :
    Option (Option Int) :=
  if st.isDefined then
    if st.valueDefined then some value
    else if isInit then
      match assigned with
      | some new => if value ≠ new then some none else some value
      | none => some none
    else
      match assigned with
      | some new => some new
      | none => some none
  else
    match assigned with
    | some new => if value = new then some value else none
    | none => none

/-- assignment_utils.rs:71-115, the loop over the previous tags. The removals in it concern the map under
construction, which does not hold the tag. -/
def keepTags (defs : TagDefs) (assigned : TagInfo) (isInit : Bool) :
    TagInfo → TagInfo → Except TagErr TagInfo
  | [], acc => .ok acc
  | (tag, value) :: rest, acc =>
    match defs.lookup tag with
    | none => .error .missing
    | some st =>
      match keepTag st isInit value (assigned.lookup tag) with
      | none => keepTags defs assigned isInit rest acc
      | some v => keepTags defs assigned isInit rest (ins tag v acc)

/-- assignment_utils.rs:117-125, the loop adding new tags. -/
def addTags : TagInfo → TagInfo → TagDefs → TagInfo × TagDefs
  | [], tags, defs => (tags, defs)
  | (tag, value) :: rest, tags, defs =>
    match tags.lookup tag with
    | some _ => addTags rest tags defs
    | none => addTags rest (ins tag value tags) (ins tag ⟨false, false⟩ defs)

/-- assignment_utils.rs:47-128, `perform_tag_propagation`. -/
def propagate (tags : TagInfo) (defs : TagDefs) (assigned : TagInfo) (isInit : Bool) :
    Except TagErr (TagInfo × TagDefs) :=
  match keepTags defs assigned isInit tags [] with
  | .error e => .error e
  | .ok tags' => .ok (if isInit then (tags', defs) else addTags assigned tags' defs)

/-- slice_types.rs:18-24, `SignalTagInfo`. -/
structure SigTags where
  tags : TagInfo
  defs : TagDefs
  remaining : Nat
  isInit : Bool
  deriving DecidableEq, Repr

/-- execute.rs:1722-1739: assigning `cells` elements of a signal (array) with a value whose tags are
`assigned` (no tags if the operator is `<--`). -/
def assignSignal (s : SigTags) (assigned : TagInfo) (cells : Nat) : Except TagErr SigTags :=
  match propagate s.tags s.defs assigned s.isInit with
  | .error e => .error e
  | .ok (tags, defs) =>
    .ok ⟨tags, defs, if s.remaining ≥ cells then s.remaining - cells else 0, true⟩

/-- A sequence of assignments. -/
def assignAll : List (TagInfo × Nat) → SigTags → Except TagErr SigTags
  | [], s => .ok s
  | (a, n) :: rest, s =>
    match assignSignal s a n with
    | .error e => .error e
    | .ok s' => assignAll rest s'

/-- execute.rs:2956: the tags a read of the signal carries. -/
def readTags (s : SigTags) : Except TagErr TagInfo := computePropagated s.defs s.remaining s.tags []

/-- type_definitions.rs `TagWire`: the tags of a value and of its fields. -/
inductive TagWire where
  | mk (tags : TagInfo) (fields : Option (List (String × TagWire)))

/-- slice_types.rs:26-34, `BusTagInfo`. -/
inductive BusTags where
  | mk (tags : TagInfo) (defs : TagDefs) (remaining size : Nat) (isInit : Bool)
      (fields : List (String × BusTags))

/-- assignment_utils.rs:136-143: the tags assigned to a field; none if the field is not mentioned. -/
def fieldWire (f : String) : TagWire → TagWire
  | .mk _ none => .mk [] none
  | .mk _ (some fields) =>
    match fields.lookup f with
    | some w => w
    | none => .mk [] none

def TagWire.tags : TagWire → TagInfo
  | .mk t _ => t

mutual

/-- assignment_utils.rs:130-148, `perform_tag_propagation_bus`. -/
def propBus : BusTags → TagWire → Nat → Except TagErr BusTags
  | .mk tags defs remaining size isInit fields, w, n =>
    match propagate tags defs w.tags isInit with
    | .error e => .error e
    | .ok (tags', defs') =>
      if remaining < n then .error .underflow
      else
        match propFields fields w n with
        | .error e => .error e
        | .ok fields' => .ok (.mk tags' defs' (remaining - n) size true fields')

/-- assignment_utils.rs:135-147, the loop over the fields. -/
def propFields : List (String × BusTags) → TagWire → Nat → Except TagErr (List (String × BusTags))
  | [], _, _ => .ok []
  | (f, .mk tags defs remaining size isInit fields) :: rest, w, n =>
    match propBus (.mk tags defs remaining size isInit fields) (fieldWire f w) (size * n) with
    | .error e => .error e
    | .ok b' =>
      match propFields rest w n with
      | .error e => .error e
      | .ok rest' => .ok ((f, b') :: rest')

end

/-- A sequence of assignments to a bus, each of a number of elements. -/
def propBusAll : List (TagWire × Nat) → BusTags → Except TagErr BusTags
  | [], b => .ok b
  | (w, n) :: rest, b =>
    match propBus b w n with
    | .error e => .error e
    | .ok b' => propBusAll rest b'

/-- assignment_utils.rs:157-165, the tags both have. -/
def joinTags (new : TagInfo) : TagInfo → TagInfo → TagInfo
  | [], acc => acc
  | (tag, value) :: rest, acc =>
    match new.lookup tag with
    | some v => if value = v then joinTags new rest (ins tag value acc) else joinTags new rest acc
    | none => joinTags new rest acc

mutual

/-- assignment_utils.rs:150-193, `join_tags_propagation` on present tags. -/
def joinWire : TagWire → TagWire → Except TagErr TagWire
  | .mk tags none, new => .ok (.mk (joinTags new.tags tags []) none)
  | .mk tags (some []), new => .ok (.mk (joinTags new.tags tags []) none)
  | .mk tags (some (f :: fs)), .mk ntags nfields =>
    match nfields with
    | none => .error .missing
    | some aux =>
      match joinFields (f :: fs) aux with
      | .error e => .error e
      | .ok r => .ok (.mk (joinTags ntags tags []) (some r))

/-- assignment_utils.rs:177-181. -/
def joinFields : List (String × TagWire) → List (String × TagWire) →
    Except TagErr (List (String × TagWire))
  | [], _ => .ok []
  | (f, w) :: rest, aux =>
    match aux.lookup f with
    | none => .error .missing
    | some w' =>
      match joinWire w w' with
      | .error e => .error e
      | .ok r =>
        match joinFields rest aux with
        | .error e => .error e
        | .ok rs => .ok ((f, r) :: rs)

end

/-- execute.rs:989-997: the tags so far and those of the next element. -/
def inlineStep (isFirst : Bool) (tags : Option TagWire) : Option TagWire → Except TagErr (Option TagWire)
  | none => .ok none
  | some w =>
    if isFirst then .ok (some w)
    else
      match tags with
      | none => .ok none
      | some a =>
        match joinWire a w with
        | .error e => .error e
        | .ok c => .ok (some c)

/-- execute.rs:984-1011: the tags of an array written in line, given those of its elements. -/
def inlineTags : Bool → Option TagWire → List (Option TagWire) → Except TagErr (Option TagWire)
  | _, tags, [] => .ok tags
  | isFirst, tags, x :: rest =>
    match inlineStep isFirst tags x with
    | .error e => .error e
    | .ok tags' => inlineTags false tags' rest

end Verif.Tags
