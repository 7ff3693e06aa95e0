/-!
# Tags of the inputs of the main component

The main component gets its inputs from outside, so no input of it may have a tag, nor a field of a bus it gets, at any depth.

Simplifications.
* A hash map of wires is the list of its entries in the order they are gone through; names and dimensions of wires are left out.
* The depth of the recursion is bounded by a number, `deep` if it does not suffice.
* The report is left out: the answer is whether there is one.
-/

namespace Verif.MainTags

/-- program_structure/src/program_library/wire_data.rs:10-47 `WireData`: tags, and the bus if it is one. -/
structure Wire where
  tags : List String
  bus : Option String
  deriving DecidableEq, Repr

/-- The answer of a search: the recursion is deeper than the bound, a bus does not exist (`assert!` of `get_bus_data`), or whether a tag is there. -/
inductive Ans where
  | deep
  | panic
  | val (b : Bool)
  deriving DecidableEq, Repr

/-- The loops of type_analysis/src/analyzers/type_check.rs:112-130 and 152-162, with the search in a bus given. -/
def scan (inBus : String → Ans) : List Wire → Ans
  | [] => .val false
  | w :: l =>
    if !w.tags.isEmpty then .val true
    else
      match w.bus with
      | none => scan inBus l
      | some b =>
        match inBus b with
        | .val true => .val true
        | .val false => scan inBus l
        | a => a

/-- type_check.rs:149-164 `check_bus_contains_tag_recursive`; `buses` are the fields of a bus (program_archive.rs:140-143, bus_data.rs:109-111). -/
def inBus (buses : String → Option (List Wire)) : Nat → String → Ans
  | 0, _ => .deep
  | n + 1, b =>
    match buses b with
    | none => .panic
    | some fields => scan (inBus buses n) fields

/-- type_check.rs:109-130 `check_main_has_tags`, for a main component that is a template: whether `MainComponentWithTags` is reported. -/
def mainTags (buses : String → Option (List Wire)) (depth : Nat) (inputs : List Wire) : Ans := scan (inBus buses depth) inputs

end Verif.MainTags
