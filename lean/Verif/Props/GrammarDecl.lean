import Verif.Props.Grammar

/-!
# C86: what declarations stand for

The reference: a declaration of a row of names is, name by name, the declaration, the zeros of a variable, and the assignment.
-/

set_option linter.unusedSimpArgs false
set_option linter.unusedVariables false

namespace Verif.Props.Grammar

open Verif.Grammar

/-- A list as a chain. -/
def chain : List Node → Node
  | [] => .nil
  | v :: l => .cons v (chain l)

/-- A name of a declaration: with dimensions, and perhaps a first value given by `=`, `<--` or `<==`. -/
structure Item where
  name : String
  dims : List Node
  value : Option (AOp × Node)

/-- A name written down. -/
def Written (p : Nat) (ni : Bool) (t : List Tok) (i : Item) : Prop :=
  ∃ td, D p ni .dims td (chain i.dims) ∧
    match i.value with
    | none => t = .id i.name :: td
    | some (a, e) => ∃ te, D p ni .exp te e ∧ t = .id i.name :: (td ++ .assign a :: te)

/-- A row of names with commas between. -/
def Row (p : Nat) (ni : Bool) (t : List Tok) : List Item → Prop
  | [] => False
  | [i] => Written p ni t i
  | i :: is => ∃ t1 t2, t = t1 ++ .comma :: t2 ∧ Written p ni t1 i ∧ Row p ni t2 is

/-- An array of copies of `v` with the given dimensions. -/
def copies (dims : List Node) (v : Node) : Node := dims.foldr (fun d w => .uniform w d) v

/-- The assignment of the first value. -/
def first (a : AOp) (i : Item) : List Node := i.value.toList.map fun v => .sub i.name .nil a v.2

/-- What `var` stands for: zeros unless `--no_init`, or unless a value is assigned to the whole at once. -/
def varRow (ni : Bool) (i : Item) : List Node :=
  .decl .var i.name (chain i.dims) ::
    ((if ni then [] else if i.value.isSome ∧ i.dims = [] then [] else [.sub i.name .nil .var (copies i.dims (.num 0))]) ++ first .var i)

/-- What a declaration of components and signals stands for. -/
def plainRow (ty : VType) (a : AOp) (i : Item) : List Node := .decl ty i.name (chain i.dims) :: first a i

/-- What a declaration of buses stands for. -/
def busRow (ty : VType) (call : Node) (a : AOp) (i : Item) : List Node :=
  .decl ty i.name (chain i.dims) :: .sub i.name .nil .var (copies i.dims call) :: first a i

/-- All values of the row are given by `a`. -/
def By (a : AOp) (is : List Item) : Prop := ∀ i ∈ is, ∀ v ∈ i.value, v.1 = a

/-- The words of a declaration of signals. -/
def signalWords : List (List Tok × SigType) :=
  [([.kw .signal], .intermediate), ([.kw .signal, .kw .input], .input), ([.kw .input, .kw .signal], .input),
    ([.kw .signal, .kw .output], .output), ([.kw .output, .kw .signal], .output)]

/-- The symbol of an item. -/
private def symOf (i : Item) : Node :=
  match i.value with
  | none => .sym i.name (chain i.dims)
  | some (a, e) => .symInit i.name (chain i.dims) a e

private theorem written {p ni t i} (h : Written p ni t i) : D p ni .sym t (symOf i) := by
  obtain ⟨x, d, v⟩ := i
  obtain ⟨td, hd, h⟩ := h
  match v with
  | none => simp only at h; subst h; exact D.sym hd
  | some (a, e) =>
    obtain ⟨te, he, h⟩ := h
    subst h
    exact D.symInit hd he

private theorem row {p ni} : ∀ (is : List Item) (t : List Tok), Row p ni t is → D p ni .syms t (chain (is.map symOf))
  | [], _, h => h.elim
  | [i], _, h => D.symsOne (written h)
  | i :: j :: is, t, ⟨t1, t2, e, h1, h2⟩ => e ▸ D.symsCons (written h1) (row (j :: is) t2 h2)

private theorem kinds_con {a} : ∀ (is : List Item), By a is → kinds true (some a) (chain (is.map symOf)) = true
  | [], _ => rfl
  | ⟨x, d, none⟩ :: is, h => by simpa [chain, kinds, symOf] using kinds_con is fun i hi => h i (List.mem_cons_of_mem _ hi)
  | ⟨x, d, some (b, e)⟩ :: is, h => by
    have hb : b = a := h _ List.mem_cons_self _ rfl
    simpa [chain, kinds, symOf, hb] using kinds_con is fun i hi => h i (List.mem_cons_of_mem _ hi)

private theorem kinds_sig {a} : ∀ (is : List Item), By a is → (∀ i ∈ is, i.value.isSome) → kinds false (some a) (chain (is.map symOf)) = true
  | [], _, _ => rfl
  | ⟨x, d, none⟩ :: is, h, h' => by simpa using h' _ List.mem_cons_self
  | ⟨x, d, some (b, e)⟩ :: is, h, h' => by
    have hb : b = a := h _ List.mem_cons_self _ rfl
    simpa [chain, kinds, symOf, hb] using kinds_sig is (fun i hi => h i (List.mem_cons_of_mem _ hi)) fun i hi => h' i (List.mem_cons_of_mem _ hi)

private theorem kinds_none : ∀ (is : List Item), (∀ i ∈ is, i.value = none) → kinds true none (chain (is.map symOf)) = true
  | [], _ => rfl
  | ⟨x, d, none⟩ :: is, h => by simpa [chain, kinds, symOf] using kinds_none is fun i hi => h i (List.mem_cons_of_mem _ hi)
  | ⟨x, d, some _⟩ :: is, h => by simpa using h _ List.mem_cons_self

private theorem uniform_copies : ∀ (d : List Node) (v : Node), uniform (chain d) v = copies d v
  | [], _ => rfl
  | _ :: d, v => by simp only [chain, uniform, copies, List.foldr]; rw [uniform_copies d v]; rfl

private theorem chain_nil (d : List Node) : chain d = .nil ↔ d = [] := by cases d <;> simp [chain]

private theorem split_var {ni} : ∀ (is : List Item), splitDecl ni .var .var (chain (is.map symOf)) = chain (is.flatMap (varRow ni))
  | [] => rfl
  | ⟨x, d, none⟩ :: is => by
    have ih := split_var (ni := ni) is
    cases ni <;> simp [chain, symOf, splitDecl, varRow, first, ih, uniform_copies]
  | ⟨x, d, some (b, e)⟩ :: is => by
    have ih := split_var (ni := ni) is
    cases ni <;> cases d <;> simp [chain, symOf, splitDecl, varRow, first, ih, uniform_copies, uniform, copies]

private theorem split_plain {ni ty a} (ht : ty ≠ .var) : ∀ (is : List Item), splitDecl ni ty a (chain (is.map symOf)) = chain (is.flatMap (plainRow ty a))
  | [] => rfl
  | ⟨x, d, none⟩ :: is => by simp [chain, symOf, splitDecl, plainRow, first, split_plain ht is, ht]
  | ⟨x, d, some (b, e)⟩ :: is => by simp [chain, symOf, splitDecl, plainRow, first, split_plain ht is, ht]

private theorem split_bus {c ty a} : ∀ (is : List Item), splitBus c ty a (chain (is.map symOf)) = chain (is.flatMap (busRow ty c a))
  | [] => rfl
  | ⟨x, d, none⟩ :: is => by simp [chain, symOf, splitBus, busRow, first, split_bus is, uniform_copies]
  | ⟨x, d, some (b, e)⟩ :: is => by simp [chain, symOf, splitBus, busRow, first, split_bus is, uniform_copies]

private theorem header {p ni h s tt tags} (hh : (h, s) ∈ signalWords) (ht : D p ni .tags tt (.strs tags)) :
    D p ni .hdr (h ++ tt) (.ty (.signal s tags) .nil) := by
  simp only [signalWords, List.mem_cons, Prod.mk.injEq, List.not_mem_nil, or_false] at hh
  rcases hh with ⟨rfl, rfl⟩ | ⟨rfl, rfl⟩ | ⟨rfl, rfl⟩ | ⟨rfl, rfl⟩ | ⟨rfl, rfl⟩
  · exact D.hdr (s := .intermediate) ht
  · exact D.hdr (s := .input) ht
  · exact D.hdrPre (s := .input) (by simp) ht
  · exact D.hdr (s := .output) ht
  · exact D.hdrPre (s := .output) (by simp) ht

/-- **C86.** A declaration of a row of names stands for the declarations and assignments name by name: `var` with zeros, components and signals
without, buses with their call. -/
theorem C86_declared (p : Nat) (ni : Bool) (t : List Tok) (is : List Item) (hr : Row p ni t is) (v : Node) :
    (By .var is → (D p ni .decl (.kw .var :: t) v ↔ v = .init .var (chain (is.flatMap (varRow ni)))) ∧
      (D p ni .decl (.kw .component :: t) v ↔ v = .init .component (chain (is.flatMap (plainRow .component .var))))) ∧
    (∀ a, a = .con ∨ (a = .sig ∧ ∀ i ∈ is, i.value.isSome) → By a is →
      (∀ h s tt tags, (h, s) ∈ signalWords → D p ni .tags tt (.strs tags) →
        (D p ni .decl (h ++ tt ++ t) v ↔ v = .init (.signal s tags) (chain (is.flatMap (plainRow (.signal s tags) a))))) ∧
      (∀ x ta as tt tags, D p ni .opt ta as → D p ni .tags tt (.strs tags) →
        (D p ni .decl (.id x :: .lpar :: (ta ++ .rpar :: .kw .input :: (tt ++ t))) v ↔
          v = .init (.bus x .input tags) (chain (is.flatMap (busRow (.bus x .input tags) (.busCall x as) a)))))) := by
  have iff : ∀ {ts w}, D p ni .decl ts w → (D p ni .decl ts v ↔ v = w) := fun hd =>
    ⟨fun h => C86_unique p ni .decl (by simp) _ _ _ h hd, fun h => h ▸ hd⟩
  have rw_ := row is t hr
  refine ⟨fun hb => ⟨?_, ?_⟩, fun a ha hb => ⟨?_, ?_⟩⟩
  · have := D.varDecl rw_ (kinds_con is hb)
    rw [split_var] at this
    exact iff this
  · have := D.compDecl rw_ (kinds_con is hb)
    rw [split_plain (by simp)] at this
    exact iff this
  · intro h s tt tags hh ht
    rcases ha with rfl | ⟨rfl, ha⟩
    · have := D.sigDecl (header hh ht) rw_ (kinds_con is hb)
      rw [split_plain (by simp)] at this
      exact iff this
    · have := D.sigDeclSig (header hh ht) rw_ (kinds_sig is hb ha)
      rw [split_plain (by simp)] at this
      exact iff this
  · intro x ta as tt tags hta ht
    have hh := D.busHdrArgs (x := x) (s := .input) hta ht
    have e : ∀ r, (.id x :: .lpar :: ta ++ .rpar :: sigTok .input ++ tt) ++ r = .id x :: .lpar :: (ta ++ .rpar :: .kw .input :: (tt ++ r)) := by
      intro r; simp [sigTok]
    rcases ha with rfl | ⟨rfl, ha⟩
    · have := D.busDecl hh rw_ (kinds_con is hb)
      rw [split_bus, e] at this
      exact iff this
    · have := D.busDeclSig hh rw_ (kinds_sig is hb ha)
      rw [split_bus, e] at this
      exact iff this

/-- The variables of a row. -/
def variables (is : List Item) : List Node := is.map fun i => .var i.name .nil

private theorem vars_of : ∀ (is : List Item), (∀ i ∈ is, i.value = none) → symVars (chain (is.map symOf)) = chain (variables is)
  | [], _ => rfl
  | ⟨x, d, none⟩ :: is, h => by
    have := vars_of is fun i hi => h i (List.mem_cons_of_mem _ hi)
    simpa [chain, symOf, symVars, variables] using this
  | ⟨x, d, some _⟩ :: is, h => by simpa using h _ List.mem_cons_self

/-- The declarations of a tuple; `ini` says that the tuple is assigned. -/
def tupleRow (ni : Bool) (ty : VType) (ini : Bool) (i : Item) : List Node :=
  .decl ty i.name (chain i.dims) ::
    if ty = .var ∧ ni = false ∧ ¬ (ini = true ∧ i.dims = []) then [.sub i.name .nil .var (copies i.dims (.num 0))] else []

private theorem tuple_of {ni ty ini} : ∀ (is : List Item), (∀ i ∈ is, i.value = none) →
    tupleDecls ni ty ini (chain (is.map symOf)) = chain (is.flatMap (tupleRow ni ty ini))
  | [], _ => rfl
  | ⟨x, d, none⟩ :: is, h => by
    have ih := tuple_of (ni := ni) (ty := ty) (ini := ini) is fun i hi => h i (List.mem_cons_of_mem _ hi)
    by_cases h1 : ty = .var <;> (try subst h1) <;> cases ni <;> cases ini <;> cases d <;>
      simp [chain, symOf, tupleDecls, tupleRow, ih, uniform_copies, *, uniform, copies]
  | ⟨x, d, some _⟩ :: is, h => by simpa using h _ List.mem_cons_self

private theorem app_chain : ∀ (a b : List Node), app (chain a) (chain b) = chain (a ++ b)
  | [], b => by cases b <;> rfl
  | x :: a, b => by simp [chain, app, app_chain a b]

/-- The assignment of a tuple. -/
def tupleValue (is : List Item) (a : AOp) (e : Node) : Node :=
  match is with
  | [i] => .sub i.name .nil a e
  | _ => .msub (.tuple (chain (variables is))) a e

/-- **C86.** A declaration of a tuple stands for the declarations of its names and, when it has a value, the assignment of the tuple; a
tuple of one name is that name. -/
theorem C86_tuple (p : Nat) (ni : Bool) (t : List Tok) (is : List Item) (hr : Row p ni t is) (hn : ∀ i ∈ is, i.value = none)
    (h : List Tok) (ty : VType)
    (hh : h = [.kw .var] ∧ ty = .var ∨ h = [.kw .component] ∧ ty = .component ∨
      ∃ w s tt tags, (w, s) ∈ signalWords ∧ D p ni .tags tt (.strs tags) ∧ h = w ++ tt ∧ ty = .signal s tags) (v : Node) :
    (D p ni .decl (h ++ .lpar :: (t ++ [.rpar])) v ↔ v = .init ty (chain (is.flatMap (tupleRow ni ty false)))) ∧
    (∀ a te e, D p ni .exp te e → (D p ni .decl (h ++ .lpar :: (t ++ .rpar :: .assign a :: te)) v ↔
      v = .init ty (chain (is.flatMap (tupleRow ni ty true) ++ [tupleValue is a e])))) := by
  have iff : ∀ {ts w}, D p ni .decl ts w → (D p ni .decl ts v ↔ v = w) := fun hd =>
    ⟨fun h => C86_unique p ni .decl (by simp) _ _ _ h hd, fun h => h ▸ hd⟩
  have rw_ := row is t hr
  have kn := kinds_none is hn
  have tsub : ∀ a e, tupleSub (chain (variables is)) a e = tupleValue is a e := by
    intro a e
    match is with
    | [] => rfl
    | [i] => rfl
    | i :: j :: is => rfl
  have one : ∀ s, chain [s] = .cons s .nil := fun _ => rfl
  constructor
  · have : D p ni .decl (h ++ .lpar :: (t ++ [.rpar])) (.init ty (tupleDecls ni ty false (chain (is.map symOf)))) := by
      rcases hh with ⟨rfl, rfl⟩ | ⟨rfl, rfl⟩ | ⟨w, s, tt, tags, hw, htt, rfl, rfl⟩
      · exact D.varTuple rw_ kn
      · exact D.compTuple rw_ kn
      · simpa using D.sigTuple (header hw htt) rw_ kn
    rw [tuple_of is hn] at this
    exact iff this
  · intro a te e he
    have : D p ni .decl (h ++ .lpar :: (t ++ .rpar :: .assign a :: te))
        (.init ty (app (tupleDecls ni ty true (chain (is.map symOf))) (.cons (tupleSub (symVars (chain (is.map symOf))) a e) .nil))) := by
      rcases hh with ⟨rfl, rfl⟩ | ⟨rfl, rfl⟩ | ⟨w, s, tt, tags, hw, htt, rfl, rfl⟩
      · simpa using D.varTupleInit rw_ kn (D.tinit (a := a) he)
      · simpa using D.compTupleInit rw_ kn (D.tinit (a := a) he)
      · simpa using D.sigTupleInit (header hw htt) rw_ kn (D.tinit (a := a) he)
    rw [tuple_of is hn, vars_of is hn, ← one, app_chain, tsub] at this
    exact iff this

/-- Words, as opposed to names and signs. -/
def isWord : Tok → Bool
  | .kw _ => true
  | _ => false

/-- **C86.** A definition is a template, function or bus as its first word says, a template is custom, external or parallel exactly when the word
stands before its name, and the name is what follows the words. -/
theorem C86_defined (p : Nat) (ni : Bool) (ts : List Tok) (v : Node) (h : D p ni .defn ts v) :
    match v with
    | .templ x _ _ pa cu ex => ts.head? = some (.kw .template) ∧ (ts.dropWhile isWord).head? = some (.id x) ∧
        (pa = true ↔ .kw .parallel ∈ ts.takeWhile isWord) ∧ (cu = true ↔ .kw .custom ∈ ts.takeWhile isWord) ∧
        (ex = true ↔ .kw .externC ∈ ts.takeWhile isWord)
    | .fn x _ _ => ts.takeWhile isWord = [.kw .function] ∧ (ts.dropWhile isWord).head? = some (.id x)
    | .busDef x _ _ => ts.takeWhile isWord = [.kw .bus] ∧ (ts.dropWhile isWord).head? = some (.id x)
    | _ => False := by
  cases h with
  | fn h1 h2 => simp [isWord, List.takeWhile, List.dropWhile]
  | busDef h1 h2 => simp [isWord, List.takeWhile, List.dropWhile]
  | @templ x t t' l b cu ex pa h1 h2 => cases cu <;> cases ex <;> cases pa <;> simp [flag, isWord, List.takeWhile, List.dropWhile]

/-- `var a = 1, b[2];` -/
example (v : Node) : D 101 false .decl [.kw .var, .id "a", .assign .var, .num 1, .comma, .id "b", .lbr, .num 2, .rbr] v ↔
    v = .init .var (chain [.decl .var "a" .nil, .sub "a" .nil .var (.num 1), .decl .var "b" (.cons (.num 2) .nil),
      .sub "b" .nil .var (.uniform (.num 0) (.num 2))]) := by
  have num : ∀ n, n < 101 → D 101 false .exp [.num n] (.num n) := fun n hn => ((C86_written 101 false).1 (.num n) (by simp [IsTree, hn]) _).2 rfl
  exact ((C86_declared 101 false _ [⟨"a", [], some (.var, .num 1)⟩, ⟨"b", [.num 2], none⟩]
    ⟨_, _, rfl, ⟨[], D.dimsNil, [.num 1], num 1 (by omega), rfl⟩, [.lbr, .num 2, .rbr], D.dimsCons (num 2 (by omega)) D.dimsNil, rfl⟩ v).1
    (by intro i hi w hw; simp at hi; rcases hi with rfl | rfl <;> simp at hw; rw [← hw])).1

/-- `var (a, b) = 1;` -/
example (v : Node) : D 101 false .decl [.kw .var, .lpar, .id "a", .comma, .id "b", .rpar, .assign .var, .num 1] v ↔
    v = .init .var (chain [.decl .var "a" .nil, .decl .var "b" .nil, .msub (.tuple (chain [.var "a" .nil, .var "b" .nil])) .var (.num 1)]) :=
  (C86_tuple 101 false [.id "a", .comma, .id "b"] [⟨"a", [], none⟩, ⟨"b", [], none⟩]
    ⟨[.id "a"], [.id "b"], rfl, ⟨[], D.dimsNil, rfl⟩, [], D.dimsNil, rfl⟩ (by simp) [.kw .var] .var (.inl ⟨rfl, rfl⟩) v).2 .var [.num 1] (.num 1)
    (((C86_written 101 false).1 (.num 1) (by simp [IsTree]) _).2 rfl)

/-- `template parallel A() { }` -/
example : D 101 false .defn [.kw .template, .kw .parallel, .id "A", .lpar, .rpar, .lcb, .rcb] (.templ "A" [] (.block .nil) true false false) :=
  D.templ (x := "A") (cu := false) (ex := false) (pa := true) (D.oparamsSome D.paramsNone) (D.block D.stmtsNil)

end Verif.Props.Grammar
