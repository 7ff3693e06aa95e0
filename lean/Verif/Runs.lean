import Verif.ModArith

/-!
# When sub-components are run

The generated programs run a sub-component when its last input has been assigned.  The wasm programs count the missing inputs of
every component.  For the C++ programs compiler/src/ir_processing/build_inputs_info.rs finds out which assignments certainly are
(not) the last one and saves the counting where it can.  This file models that analysis, the executions of the instructions that
assign inputs, and what both programs do at each of them.

Names of components are numbers here; instructions that assign no input of a sub-component are `other`.  Stores
(`StoreBucket`) and calls that store their result (`CallBucket` with `ReturnType::Final`) are treated alike by the code and are
one constructor.
-/

namespace Verif.Runs

/-- `StatusInput` (intermediate_representation/address_type.rs:3-8). -/
inductive Status where
  | last
  | noLast
  | unknown
  deriving DecidableEq, Repr

/-- `InputInformation::Input` (address_type.rs:10-14). -/
structure Info where
  status : Status
  needs : Bool
  deriving DecidableEq, Repr

/-- What the analysis sees of the destination `SubcmpSignal` (address_type.rs:35-50): an anonymous component with its name, a
component whose position is the constant `k`, or a component of the given name at a computed position. -/
inductive Tgt where
  | anon (name : Nat)
  | known (name k : Nat)
  | unknown (name : Nat)
  deriving DecidableEq, Repr

/-- Instructions.  `size` is the size of the destination, `none` for `SizeOption::Multiple`; `site` identifies the
instruction. -/
inductive Ins where
  | store (site : Nat) (t : Tgt) (size : Option Nat) (info : Info)
  | branch (a b : List Ins)
  | loop (b : List Ins)
  | other
  deriving Repr

/-- build_inputs_info.rs:6-9 `LastInfo`. -/
structure LastInfo where
  needs : Bool
  found : Bool
  deriving DecidableEq, Repr

/-- Keys of `LastInfoMap`: the name of an anonymous component, or the text `cmp_k`. -/
inductive Key where
  | anon (n : Nat)
  | cmp (k : Nat)
  deriving DecidableEq, Repr

/-- `assignment_status`, `unknown_component_names`, and whether the assertion of line 190 failed (the model goes on). -/
structure Env where
  ent : Key → Option LastInfo
  unk : List Nat
  bad : Bool

/-- `assignment_status.insert`. -/
def Env.set (e : Env) (k : Key) (i : LastInfo) : Env := { e with ent := fun x => if x = k then some i else e.ent x }

/-- build_inputs_info.rs:138-277 `visit_address_type`: status of one assignment; `lv` is `assigments_level` (only positions of
non-anonymous components are inserted there). -/
def visitTgt (inLoop : Bool) (e : Env) (lv : List Nat) : Tgt → Info × Env × List Nat
  | .anon n =>
    match e.ent (.anon n) with
    | some i => (⟨.noLast, false⟩, { e with bad := e.bad || !i.found }, lv)
    | none => (⟨.last, false⟩, e.set (.anon n) ⟨false, true⟩, lv)
  | .known name k =>
    match e.ent (.cmp k) with
    | some i =>
      if i.found then (⟨.noLast, i.needs⟩, e, lv)
      else if k ∈ lv then (⟨.noLast, true⟩, e, lv)
      else if inLoop then (⟨.unknown, true⟩, e, k :: lv)
      else (⟨.unknown, true⟩, e.set (.cmp k) ⟨i.needs, true⟩, lv)
    | none =>
      if name ∈ e.unk then
        if inLoop then (⟨.unknown, true⟩, e.set (.cmp k) ⟨true, false⟩, k :: lv)
        else (⟨.unknown, true⟩, e.set (.cmp k) ⟨true, true⟩, lv)
      else
        if inLoop then (⟨.unknown, true⟩, e.set (.cmp k) ⟨true, false⟩, k :: lv)
        else (⟨.last, false⟩, e.set (.cmp k) ⟨false, true⟩, lv)
  | .unknown name => (⟨.unknown, true⟩, { e with unk := name :: e.unk }, lv)

mutual
/-- build_inputs_info.rs:49-136 `visit_instruction`, `visit_branch`, `visit_call`, `visit_loop`, `visit_store`: an assignment of
compile-time size 0 keeps its information. -/
def visitI (inLoop : Bool) (e : Env) (lv : List Nat) : Ins → Ins × Env × List Nat
  | .store s t size info =>
    if size = some 0 then (.store s t size info, e, lv)
    else (.store s t size (visitTgt inLoop e lv t).1, (visitTgt inLoop e lv t).2.1, (visitTgt inLoop e lv t).2.2)
  | .branch a b =>
    (.branch (visitL true e [] a).1 (visitL true (visitL true e [] a).2.1 [] b).1,
      (visitL true (visitL true e [] a).2.1 [] b).2.1, lv)
  | .loop b => (.loop (visitL true e [] b).1, (visitL true e [] b).2.1, lv)
  | .other => (.other, e, lv)

/-- build_inputs_info.rs:30-47 `visit_list`: from the last instruction to the first. -/
def visitL (inLoop : Bool) (e : Env) (lv : List Nat) : List Ins → List Ins × Env × List Nat
  | [] => ([], e, lv)
  | i :: is =>
    ((visitI inLoop (visitL inLoop e lv is).2.1 (visitL inLoop e lv is).2.2 i).1 :: (visitL inLoop e lv is).1,
      (visitI inLoop (visitL inLoop e lv is).2.1 (visitL inLoop e lv is).2.2 i).2)
end

/-- The empty maps the analysis starts with. -/
def Env.empty : Env := ⟨fun _ => none, [], false⟩

/-- ir_processing/mod.rs:24-25 `build_inputs_info`. -/
def analyse (prog : List Ins) : List Ins := (visitL false Env.empty [] prog).1

/-! ## Executions -/

/-- A component at run time: by position, or an instance of an anonymous component (there is one for every execution of the
expression). -/
inductive Comp where
  | cmp (k : Nat)
  | anon (name inst : Nat)
  deriving DecidableEq, Repr

/-- An executed assignment: component, number of elements assigned, the instruction and the information the analysis left. -/
structure Ev where
  comp : Comp
  amount : Nat
  site : Nat
  info : Info
  deriving DecidableEq, Repr

/-- The components that a destination may denote; `nm k` is the name under which the component at position `k` was declared. -/
def hits (nm : Nat → Nat) : Tgt → Comp → Prop
  | .anon n, c => ∃ i, c = .anon n i
  | .known name k, c => c = .cmp k ∧ nm k = name
  | .unknown name, c => ∃ k, c = .cmp k ∧ nm k = name

mutual
/-- `es` are the assignments of some execution of an instruction: conditions may go either way, loops may repeat any number of
times, the number of elements is at most the size of the destination. -/
def trI (nm : Nat → Nat) : Ins → List Ev → Prop
  | .store s t size info, es =>
    ∃ e : Ev, es = [e] ∧ hits nm t e.comp ∧ e.site = s ∧ e.info = info ∧ ∀ n, size = some n → e.amount ≤ n
  | .branch a b, es => trL nm a es ∨ trL nm b es
  | .loop b, es => ∃ ts : List (List Ev), (∀ t ∈ ts, trL nm b t) ∧ es = ts.flatten
  | .other, es => es = []

/-- Executions of a list of instructions. -/
def trL (nm : Nat → Nat) : List Ins → List Ev → Prop
  | [], es => es = []
  | i :: is, es => ∃ a b, trI nm i a ∧ trL nm is b ∧ es = a ++ b
end

/-! ## The programs -/

/-- Counter of one component changed. -/
def dec (ctr : Comp → Int) (e : Ev) : Comp → Int := fun c => if c = e.comp then ctr c - e.amount else ctr c

/-- What the C++ program does after an assignment (store_bucket.rs:660-838, call_bucket.rs:686-870): is the component run, and
the counters afterwards; `none` is a failed `assert`.  `san`: `sanity_check_style >= 2`; `mixed`: parallel or not is only known
at run time (`uniform_parallel_value` is `None`). -/
def cStep (san mixed : Bool) (ctr : Comp → Int) (e : Ev) : Option (Bool × (Comp → Int)) :=
  match e.info.status with
  | .noLast =>
    if e.info.needs || san then
      if san && !decide (dec ctr e e.comp > 0) then none else some (false, dec ctr e)
    else some (false, ctr)
  | .last =>
    if (mixed && e.info.needs) || san then
      if san && !decide (dec ctr e e.comp = 0) then none else some (true, dec ctr e)
    else some (true, ctr)
  | .unknown => some (decide (dec ctr e e.comp = 0), dec ctr e)

/-- For every assignment of an execution, whether the C++ program runs the component after it.  `mixed` depends on the
instruction. -/
def cRuns (san : Bool) (mixed : Nat → Bool) : (Comp → Int) → List Ev → Option (List Bool)
  | _, [] => some []
  | ctr, e :: es =>
    match cStep san (mixed e.site) ctr e with
    | none => none
    | some (r, ctr') =>
      match cRuns san mixed ctr' es with
      | none => none
      | some rs => some (r :: rs)

/-- The same for the wasm program (store_bucket.rs:357-385, call_bucket.rs:375-412): it always counts. -/
def wRuns : (Comp → Int) → List Ev → List Bool
  | _, [] => []
  | ctr, e :: es => decide (dec ctr e e.comp = 0) :: wRuns (dec ctr e) es

/-! ## Assignments to an anonymous component -/

mutual
/-- Instructions that assign a non-empty input of the anonymous component `n`, in the order of the text, with the information
they carry. -/
def anonI (n : Nat) : Ins → List (Nat × Info)
  | .store s t size info => if t = .anon n ∧ size ≠ some 0 then [(s, info)] else []
  | .branch a b => anonL n a ++ anonL n b
  | .loop b => anonL n b
  | .other => []

/-- For lists. -/
def anonL (n : Nat) : List Ins → List (Nat × Info)
  | [] => []
  | i :: is => anonI n i ++ anonL n is
end

mutual
/-- No condition has assignments to `n` on both sides. -/
def oneArmI (n : Nat) : Ins → Bool
  | .store _ _ _ _ => true
  | .branch a b => oneArmL n a && oneArmL n b && (decide (anonL n a = []) || decide (anonL n b = []))
  | .loop b => oneArmL n b
  | .other => true

/-- For lists. -/
def oneArmL (n : Nat) : List Ins → Bool
  | [] => true
  | i :: is => oneArmI n i && oneArmL n is
end

end Verif.Runs
