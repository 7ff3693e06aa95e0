import Verif.Expand

/-!
# Bodies that do not hide a name

What the theorems on `Verif.Expand` assume of a body: no name is declared where it can already be
seen.  `symbol_analysis.rs:165-172` only asks that a name is declared once in its block.
-/

set_option linter.unusedVariables false

namespace Verif.Expand

mutual
/-- The variables an expression reads. -/
def reads : Ex → List String
  | .num _ => []
  | .var x _ idx => x :: readsAll idx
  | .node _ es => readsAll es
  | .switch c t f => reads c ++ (reads t ++ reads f)
  | .sugar => []
/-- The variables expressions read. -/
def readsAll : List Ex → List String
  | [] => []
  | e :: es => reads e ++ readsAll es
end

mutual
/-- Only the names in `arr` are read with an index. -/
def Indexed (arr : List String) : Ex → Prop
  | .num _ => True
  | .var x _ idx => (idx = [] ∨ x ∈ arr) ∧ IndexedAll arr idx
  | .node _ es => IndexedAll arr es
  | .switch c t f => Indexed arr c ∧ Indexed arr t ∧ Indexed arr f
  | .sugar => True
/-- The same for a list. -/
def IndexedAll (arr : List String) : List Ex → Prop
  | [] => True
  | e :: es => Indexed arr e ∧ IndexedAll arr es
end

/-- The names a statement declares in the block it stands in, the last one first. -/
def intro : Stmt → List String
  | .init syms _ => (syms.map Sym.name).reverse
  | _ => []

/-- The arrays among them. -/
def introArr : Stmt → List String
  | .init syms _ => ((syms.filter fun s => !s.dims.isEmpty).map Sym.name).reverse
  | _ => []

/-- The symbols of an initialization block, where the names `vis` can be seen and `arr` are those
with dimensions: each is new, what it is initialised with has been declared before, and a symbol
without dimensions is initialised at most once, by itself or, if `tuple`, by a tuple. -/
def PlainSyms (tuple : Bool) : List String → List String → List Sym → Prop
  | _, _, [] => True
  | arr, vis, s :: ss =>
      s.name ∉ vis ∧ (∀ y ∈ readsAll s.subs, y ∈ vis) ∧ IndexedAll arr s.subs ∧
      (s.dims = [] → s.subs.length ≤ 1 ∧ (tuple = true → s.subs = [])) ∧
      PlainSyms tuple (if s.dims.isEmpty then arr else s.name :: arr) (s.name :: vis) ss

mutual
/-- No name is declared where it can be seen; the branches of `if` and the body of `while` are
not declarations themselves, as in the grammar. -/
def Plain : List String → List String → Stmt → Prop
  | arr, vis, .ifThen _ a => Plain arr vis a ∧ intro a = []
  | arr, vis, .ifElse _ a b => Plain arr vis a ∧ intro a = [] ∧ Plain arr vis b ∧ intro b = []
  | arr, vis, .loop _ s => Plain arr vis s ∧ intro s = []
  | arr, vis, .init syms tail =>
      PlainSyms (!tail.isEmpty) arr vis syms ∧ ∀ p ∈ tail, p.1 ∈ syms.map Sym.name
  | arr, vis, .block ss => PlainAll arr vis ss
  | _, _, .subst _ _ _ _ => True
  | _, _, _ => True
/-- The statements of a block, one after another. -/
def PlainAll : List String → List String → List Stmt → Prop
  | _, _, [] => True
  | arr, vis, s :: ss =>
      Plain arr vis s ∧ PlainAll (introArr s ++ arr) (intro s ++ vis) ss
end

mutual
/-- The names a statement assigns outside of declarations. -/
def assigned : Stmt → List String
  | .ifThen _ a => assigned a
  | .ifElse _ a b => assigned a ++ assigned b
  | .loop _ s => assigned s
  | .subst x _ _ _ => [x]
  | .block ss => assignedAll ss
  | _ => []
/-- The names statements assign. -/
def assignedAll : List Stmt → List String
  | [] => []
  | s :: ss => assigned s ++ assignedAll ss
end

end Verif.Expand
