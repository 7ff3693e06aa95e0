import Verif.Archive
import Mathlib.Data.List.Perm.Basic
import Mathlib.Data.List.Nodup

/-!
# Lemmas on the program archive
-/

namespace Verif.Archive

/-! ### The nodes of a tree, and the tree without its numbers -/

mutual
/-- All `Meta` of an expression, in the order of the fields. -/
def metasE : Ex → List Meta
  | .infix m l r => m :: (metasE l ++ metasE r)
  | .prefix m e => m :: metasE e
  | .switch m c t f => m :: (metasE c ++ (metasE t ++ metasE f))
  | .parallel m e => m :: metasE e
  | .var m _ a => m :: metasA a
  | .num m _ => [m]
  | .call m _ l => m :: metasL l
  | .bus m _ l => m :: metasL l
  | .anon m _ p s => m :: (metasL p ++ metasL s)
  | .arr m l => m :: metasL l
  | .tuple m l => m :: metasL l
  | .uniform m v d => m :: (metasE v ++ metasE d)

def metasL : List Ex → List Meta
  | [] => []
  | e :: l => metasE e ++ metasL l

def metasA : List Acc → List Meta
  | [] => []
  | .comp _ :: l => metasA l
  | .idx e :: l => metasE e ++ metasA l
end

def metasLog : List LogArg → List Meta
  | [] => []
  | .str _ :: l => metasLog l
  | .exp e :: l => metasE e ++ metasLog l

mutual
/-- All `Meta` of a statement, in the order of the fields. -/
def metas : Stmt → List Meta
  | .cond m c t f => m :: (metasE c ++ (metas t ++ metasO f))
  | .loop m c b => m :: (metasE c ++ metas b)
  | .ret m e => m :: metasE e
  | .init m _ l => m :: metasSs l
  | .decl m _ _ d => m :: metasL d
  | .subst m _ a e => m :: (metasA a ++ metasE e)
  | .mult m l r => m :: (metasE l ++ metasE r)
  | .under m e => m :: metasE e
  | .ceq m l r => m :: (metasE l ++ metasE r)
  | .log m l => m :: metasLog l
  | .block m l => m :: metasSs l
  | .assert m e => m :: metasE e

def metasO : Option Stmt → List Meta
  | none => []
  | some s => metas s

def metasSs : List Stmt → List Meta
  | [] => []
  | s :: l => metas s ++ metasSs l
end

/-- A `Meta` as the parser makes it. -/
def Meta.erase (m : Meta) : Meta := ⟨0, none, m.start⟩

mutual
/-- The expression with the `Meta` as the parser makes them. -/
def eraseE : Ex → Ex
  | .infix m l r => .infix m.erase (eraseE l) (eraseE r)
  | .prefix m e => .prefix m.erase (eraseE e)
  | .switch m c t f => .switch m.erase (eraseE c) (eraseE t) (eraseE f)
  | .parallel m e => .parallel m.erase (eraseE e)
  | .var m x a => .var m.erase x (eraseA a)
  | .num m v => .num m.erase v
  | .call m x l => .call m.erase x (eraseL l)
  | .bus m x l => .bus m.erase x (eraseL l)
  | .anon m x p s => .anon m.erase x (eraseL p) (eraseL s)
  | .arr m l => .arr m.erase (eraseL l)
  | .tuple m l => .tuple m.erase (eraseL l)
  | .uniform m v d => .uniform m.erase (eraseE v) (eraseE d)

def eraseL : List Ex → List Ex
  | [] => []
  | e :: l => eraseE e :: eraseL l

def eraseA : List Acc → List Acc
  | [] => []
  | .comp x :: l => .comp x :: eraseA l
  | .idx e :: l => .idx (eraseE e) :: eraseA l
end

def eraseLog : List LogArg → List LogArg
  | [] => []
  | .str s :: l => .str s :: eraseLog l
  | .exp e :: l => .exp (eraseE e) :: eraseLog l

mutual
/-- The statement with the `Meta` as the parser makes them. -/
def erase : Stmt → Stmt
  | .cond m c t f => .cond m.erase (eraseE c) (erase t) (eraseO f)
  | .loop m c b => .loop m.erase (eraseE c) (erase b)
  | .ret m e => .ret m.erase (eraseE e)
  | .init m t l => .init m.erase t (eraseSs l)
  | .decl m t x d => .decl m.erase t x (eraseL d)
  | .subst m x a e => .subst m.erase x (eraseA a) (eraseE e)
  | .mult m l r => .mult m.erase (eraseE l) (eraseE r)
  | .under m e => .under m.erase (eraseE e)
  | .ceq m l r => .ceq m.erase (eraseE l) (eraseE r)
  | .log m l => .log m.erase (eraseLog l)
  | .block m l => .block m.erase (eraseSs l)
  | .assert m e => .assert m.erase (eraseE e)

def eraseO : Option Stmt → Option Stmt
  | none => none
  | some s => some (erase s)

def eraseSs : List Stmt → List Stmt
  | [] => []
  | s :: l => erase s :: eraseSs l
end

theorem erase_set (m : Meta) (f n : Nat) : (m.set f n).erase = m.erase := by
  cases m
  rfl

mutual
theorem eraseE_fill (f : Nat) : ∀ (n : Nat) (e : Ex), eraseE (fillE f n e).1 = eraseE e
  | n, .infix m l r => by simp only [fillE, eraseE, erase_set, eraseE_fill f _ l, eraseE_fill f _ r]
  | n, .prefix m e => by simp only [fillE, eraseE, erase_set, eraseE_fill f _ e]
  | n, .switch m c t e => by simp only [fillE, eraseE, erase_set, eraseE_fill f _ c, eraseE_fill f _ t, eraseE_fill f _ e]
  | n, .parallel m e => by simp only [fillE, eraseE, erase_set, eraseE_fill f _ e]
  | n, .var m x a => by simp only [fillE, eraseE, erase_set, eraseA_fill f _ a]
  | n, .num m v => by simp only [fillE, eraseE, erase_set]
  | n, .call m x l => by simp only [fillE, eraseE, erase_set, eraseL_fill f _ l]
  | n, .bus m x l => by simp only [fillE, eraseE, erase_set, eraseL_fill f _ l]
  | n, .anon m x p s => by simp only [fillE, eraseE, erase_set, eraseL_fill f _ p, eraseL_fill f _ s]
  | n, .arr m l => by simp only [fillE, eraseE, erase_set, eraseL_fill f _ l]
  | n, .tuple m l => by simp only [fillE, eraseE, erase_set, eraseL_fill f _ l]
  | n, .uniform m v d => by simp only [fillE, eraseE, erase_set, eraseE_fill f _ v, eraseE_fill f _ d]

theorem eraseL_fill (f : Nat) : ∀ (n : Nat) (l : List Ex), eraseL (fillL f n l).1 = eraseL l
  | n, [] => by simp only [fillL, eraseL]
  | n, e :: l => by simp only [fillL, eraseL, eraseE_fill f _ e, eraseL_fill f _ l]

theorem eraseA_fill (f : Nat) : ∀ (n : Nat) (l : List Acc), eraseA (fillA f n l).1 = eraseA l
  | n, [] => by simp only [fillA, eraseA]
  | n, .comp x :: l => by simp only [fillA, eraseA, eraseA_fill f _ l]
  | n, .idx e :: l => by simp only [fillA, eraseA, eraseE_fill f _ e, eraseA_fill f _ l]
end

theorem eraseLog_fill (f : Nat) : ∀ (n : Nat) (l : List LogArg), eraseLog (fillLog f n l).1 = eraseLog l
  | n, [] => by simp only [fillLog, eraseLog]
  | n, .str x :: l => by simp only [fillLog, eraseLog, eraseLog_fill f _ l]
  | n, .exp e :: l => by simp only [fillLog, eraseLog, eraseE_fill f _ e, eraseLog_fill f _ l]

mutual
theorem erase_fill (f : Nat) : ∀ (n : Nat) (s : Stmt), erase (fillS f n s).1 = erase s
  | n, .cond m c t e => by simp only [fillS, erase, erase_set, eraseE_fill f _ c, erase_fill f _ t, eraseO_fill f _ e]
  | n, .loop m c b => by simp only [fillS, erase, erase_set, eraseE_fill f _ c, erase_fill f _ b]
  | n, .ret m e => by simp only [fillS, erase, erase_set, eraseE_fill f _ e]
  | n, .init m t l => by simp only [fillS, erase, erase_set, eraseSs_fill f _ l]
  | n, .decl m t x d => by simp only [fillS, erase, erase_set, eraseL_fill f _ d]
  | n, .subst m x a e => by simp only [fillS, erase, erase_set, eraseA_fill f _ a, eraseE_fill f _ e]
  | n, .mult m l r => by simp only [fillS, erase, erase_set, eraseE_fill f _ l, eraseE_fill f _ r]
  | n, .under m e => by simp only [fillS, erase, erase_set, eraseE_fill f _ e]
  | n, .ceq m l r => by simp only [fillS, erase, erase_set, eraseE_fill f _ l, eraseE_fill f _ r]
  | n, .log m l => by simp only [fillS, erase, erase_set, eraseLog_fill f _ l]
  | n, .block m l => by simp only [fillS, erase, erase_set, eraseSs_fill f _ l]
  | n, .assert m e => by simp only [fillS, erase, erase_set, eraseE_fill f _ e]

theorem eraseO_fill (f : Nat) : ∀ (n : Nat) (s : Option Stmt), eraseO (fillO f n s).1 = eraseO s
  | n, none => by simp only [fillO, eraseO]
  | n, some s => by simp only [fillO, eraseO, erase_fill f _ s]

theorem eraseSs_fill (f : Nat) : ∀ (n : Nat) (l : List Stmt), eraseSs (fillSs f n l).1 = eraseSs l
  | n, [] => by simp only [fillSs, eraseSs]
  | n, s :: l => by simp only [fillSs, eraseSs, erase_fill f _ s, eraseSs_fill f _ l]
end

/-! ### The numbers -/

/-- The nodes carry the numbers from `n` to `n'`, each once, and the file `f`. -/
def Numbered (f n n' : Nat) (ms : List Meta) : Prop :=
  n' = n + ms.length ∧ (ms.map Meta.elem).Perm (List.range' n ms.length) ∧ ∀ m ∈ ms, m.file = some f

theorem Numbered.nil (f n : Nat) : Numbered f n n [] := ⟨rfl, .refl _, by simp⟩

theorem Numbered.cons {f n n' : Nat} {ms : List Meta} (m : Meta) (h : Numbered f (n + 1) n' ms) :
    Numbered f n n' (m.set f n :: ms) := by
  obtain ⟨h1, h2, h3⟩ := h
  refine ⟨by simp only [List.length_cons]; omega, ?_, ?_⟩
  · simp only [List.map_cons, List.length_cons, List.range'_succ]
    exact h2.cons _
  · intro x hx
    rcases List.mem_cons.1 hx with rfl | hx
    · rfl
    · exact h3 x hx

theorem Numbered.append {f n n' n'' : Nat} {a b : List Meta} (h : Numbered f n n' a) (k : Numbered f n' n'' b) :
    Numbered f n n'' (a ++ b) := by
  obtain ⟨h1, h2, h3⟩ := h
  obtain ⟨k1, k2, k3⟩ := k
  refine ⟨by simp only [List.length_append]; omega, ?_, ?_⟩
  · rw [List.map_append, List.length_append, ← List.range'_append_1]
    rw [h1] at k2
    exact h2.append k2
  · intro x hx
    rcases List.mem_append.1 hx with hx | hx
    · exact h3 x hx
    · exact k3 x hx

theorem Numbered.swap {f n n' : Nat} {a b : List Meta} (h : Numbered f n n' (a ++ b)) : Numbered f n n' (b ++ a) := by
  obtain ⟨h1, h2, h3⟩ := h
  have hl : (b ++ a).length = (a ++ b).length := by simp only [List.length_append]; omega
  refine ⟨by rw [hl]; exact h1, ?_, fun m hm => h3 m (List.mem_append.2 (Or.symm (List.mem_append.1 hm)))⟩
  rw [hl]
  exact (List.perm_append_comm.map _).trans h2

mutual
theorem numberedE (f : Nat) : ∀ (n : Nat) (e : Ex), Numbered f n (fillE f n e).2 (metasE (fillE f n e).1)
  | n, .infix m l r => by
    simp only [fillE, metasE]
    exact ((numberedE f _ l).append (numberedE f _ r)).cons m
  | n, .prefix m e => by
    simp only [fillE, metasE]
    exact (numberedE f _ e).cons m
  | n, .switch m c t e => by
    simp only [fillE, metasE]
    exact ((numberedE f _ c).append ((numberedE f _ t).append (numberedE f _ e))).cons m
  | n, .parallel m e => by
    simp only [fillE, metasE]
    exact (numberedE f _ e).cons m
  | n, .var m x a => by
    simp only [fillE, metasE]
    exact (numberedA f _ a).cons m
  | n, .num m v => by
    simp only [fillE, metasE]
    exact (Numbered.nil f _).cons m
  | n, .call m x l => by
    simp only [fillE, metasE]
    exact (numberedL f _ l).cons m
  | n, .bus m x l => by
    simp only [fillE, metasE]
    exact (numberedL f _ l).cons m
  | n, .anon m x p s => by
    simp only [fillE, metasE]
    exact ((numberedL f _ p).append (numberedL f _ s)).cons m
  | n, .arr m l => by
    simp only [fillE, metasE]
    exact (numberedL f _ l).cons m
  | n, .tuple m l => by
    simp only [fillE, metasE]
    exact (numberedL f _ l).cons m
  | n, .uniform m v d => by
    simp only [fillE, metasE]
    exact ((numberedE f _ v).append (numberedE f _ d)).cons m

theorem numberedL (f : Nat) : ∀ (n : Nat) (l : List Ex), Numbered f n (fillL f n l).2 (metasL (fillL f n l).1)
  | n, [] => by
    simp only [fillL, metasL]
    exact Numbered.nil f n
  | n, e :: l => by
    simp only [fillL, metasL]
    exact (numberedE f _ e).append (numberedL f _ l)

theorem numberedA (f : Nat) : ∀ (n : Nat) (l : List Acc), Numbered f n (fillA f n l).2 (metasA (fillA f n l).1)
  | n, [] => by
    simp only [fillA, metasA]
    exact Numbered.nil f n
  | n, .comp x :: l => by
    simp only [fillA, metasA]
    exact numberedA f _ l
  | n, .idx e :: l => by
    simp only [fillA, metasA]
    exact (numberedE f _ e).append (numberedA f _ l)
end

theorem numberedLog (f : Nat) : ∀ (n : Nat) (l : List LogArg), Numbered f n (fillLog f n l).2 (metasLog (fillLog f n l).1)
  | n, [] => by
    simp only [fillLog, metasLog]
    exact Numbered.nil f n
  | n, .str x :: l => by
    simp only [fillLog, metasLog]
    exact numberedLog f _ l
  | n, .exp e :: l => by
    simp only [fillLog, metasLog]
    exact (numberedE f _ e).append (numberedLog f _ l)

mutual
theorem numberedS (f : Nat) : ∀ (n : Nat) (s : Stmt), Numbered f n (fillS f n s).2 (metas (fillS f n s).1)
  | n, .cond m c t e => by
    simp only [fillS, metas]
    exact ((numberedE f _ c).append ((numberedS f _ t).append (numberedO f _ e))).cons m
  | n, .loop m c b => by
    simp only [fillS, metas]
    exact ((numberedE f _ c).append (numberedS f _ b)).cons m
  | n, .ret m e => by
    simp only [fillS, metas]
    exact (numberedE f _ e).cons m
  | n, .init m t l => by
    simp only [fillS, metas]
    exact (numberedSs f _ l).cons m
  | n, .decl m t x d => by
    simp only [fillS, metas]
    exact (numberedL f _ d).cons m
  | n, .subst m x a e => by
    simp only [fillS, metas]
    exact (((numberedE f _ e).append (numberedA f _ a)).swap).cons m
  | n, .mult m l r => by
    simp only [fillS, metas]
    exact (((numberedE f _ r).append (numberedE f _ l)).swap).cons m
  | n, .under m e => by
    simp only [fillS, metas]
    exact (numberedE f _ e).cons m
  | n, .ceq m l r => by
    simp only [fillS, metas]
    exact ((numberedE f _ l).append (numberedE f _ r)).cons m
  | n, .log m l => by
    simp only [fillS, metas]
    exact (numberedLog f _ l).cons m
  | n, .block m l => by
    simp only [fillS, metas]
    exact (numberedSs f _ l).cons m
  | n, .assert m e => by
    simp only [fillS, metas]
    exact (numberedE f _ e).cons m

theorem numberedO (f : Nat) : ∀ (n : Nat) (s : Option Stmt), Numbered f n (fillO f n s).2 (metasO (fillO f n s).1)
  | n, none => by
    simp only [fillO, metasO]
    exact Numbered.nil f n
  | n, some s => by
    simp only [fillO, metasO]
    exact numberedS f _ s

theorem numberedSs (f : Nat) : ∀ (n : Nat) (l : List Stmt), Numbered f n (fillSs f n l).2 (metasSs (fillSs f n l).1)
  | n, [] => by
    simp only [fillSs, metasSs]
    exact Numbered.nil f n
  | n, s :: l => by
    simp only [fillSs, metasSs]
    exact (numberedS f _ s).append (numberedSs f _ l)
end

/-! ### Declarations -/

mutual
/-- The declarations of a statement in the order of the text: type, name and number of dimensions. -/
def decls : Stmt → List (VType × String × Nat)
  | .cond _ _ t f => decls t ++ declsO f
  | .loop _ _ b => decls b
  | .init _ _ l => declsL l
  | .block _ l => declsL l
  | .decl _ t x d => [(t, x, d.length)]
  | _ => []

def declsO : Option Stmt → List (VType × String × Nat)
  | none => []
  | some s => decls s

def declsL : List Stmt → List (VType × String × Nat)
  | [] => []
  | s :: l => decls s ++ declsL l
end

mutual
/-- The declarations of a statement outside conditionals and loops. -/
def flat : Stmt → List (VType × String × Nat)
  | .init _ _ l => flatL l
  | .block _ l => flatL l
  | .decl _ t x d => [(t, x, d.length)]
  | _ => []

def flatL : List Stmt → List (VType × String × Nat)
  | [] => []
  | s :: l => flat s ++ flatL l
end

mutual
theorem ports_decls : ∀ (s : Stmt) (p : Ports), ports s p = (decls s).foldl (fun p d => p.declare d.1 d.2.1 d.2.2) p
  | .cond _ _ t f, p => by simp only [ports, decls, List.foldl_append, ports_decls t, portsO_decls f]
  | .loop _ _ b, p => by simp only [ports, decls, ports_decls b]
  | .init _ _ l, p => by simp only [ports, decls, portsL_decls l]
  | .block _ l, p => by simp only [ports, decls, portsL_decls l]
  | .decl _ t x d, p => by simp only [ports, decls, List.foldl_cons, List.foldl_nil]
  | .ret .., p => by simp only [ports, decls, List.foldl_nil]
  | .subst .., p => by simp only [ports, decls, List.foldl_nil]
  | .mult .., p => by simp only [ports, decls, List.foldl_nil]
  | .under .., p => by simp only [ports, decls, List.foldl_nil]
  | .ceq .., p => by simp only [ports, decls, List.foldl_nil]
  | .log .., p => by simp only [ports, decls, List.foldl_nil]
  | .assert .., p => by simp only [ports, decls, List.foldl_nil]

theorem portsO_decls : ∀ (s : Option Stmt) (p : Ports),
    portsO s p = (declsO s).foldl (fun p d => p.declare d.1 d.2.1 d.2.2) p
  | none, p => by simp only [portsO, declsO, List.foldl_nil]
  | some s, p => by simp only [portsO, declsO, ports_decls s]

theorem portsL_decls : ∀ (l : List Stmt) (p : Ports),
    portsL l p = (declsL l).foldl (fun p d => p.declare d.1 d.2.1 d.2.2) p
  | [], p => by simp only [portsL, declsL, List.foldl_nil]
  | s :: l, p => by simp only [portsL, declsL, List.foldl_append, ports_decls s, portsL_decls l]
end

mutual
theorem fields_flat : ∀ (s : Stmt) (p : Fields), fields s p = (flat s).foldl (fun p d => p.declare d.1 d.2.1 d.2.2) p
  | .cond .., p => by simp only [fields, flat, List.foldl_nil]
  | .loop .., p => by simp only [fields, flat, List.foldl_nil]
  | .init _ _ l, p => by simp only [fields, flat, fieldsL_flat l]
  | .block _ l, p => by simp only [fields, flat, fieldsL_flat l]
  | .decl _ t x d, p => by simp only [fields, flat, List.foldl_cons, List.foldl_nil]
  | .ret .., p => by simp only [fields, flat, List.foldl_nil]
  | .subst .., p => by simp only [fields, flat, List.foldl_nil]
  | .mult .., p => by simp only [fields, flat, List.foldl_nil]
  | .under .., p => by simp only [fields, flat, List.foldl_nil]
  | .ceq .., p => by simp only [fields, flat, List.foldl_nil]
  | .log .., p => by simp only [fields, flat, List.foldl_nil]
  | .assert .., p => by simp only [fields, flat, List.foldl_nil]

theorem fieldsL_flat : ∀ (l : List Stmt) (p : Fields),
    fieldsL l p = (flatL l).foldl (fun p d => p.declare d.1 d.2.1 d.2.2) p
  | [], p => by simp only [fieldsL, flatL, List.foldl_nil]
  | s :: l, p => by simp only [fieldsL, flatL, List.foldl_append, fields_flat s, fieldsL_flat l]
end

theorem fillL_length (f : Nat) : ∀ (n : Nat) (l : List Ex), (fillL f n l).1.length = l.length
  | n, [] => by simp only [fillL]
  | n, e :: l => by simp only [fillL, List.length_cons, fillL_length f _ l]

mutual
theorem decls_fill (f : Nat) : ∀ (n : Nat) (s : Stmt), decls (fillS f n s).1 = decls s
  | n, .cond _ _ t e => by simp only [fillS, decls, decls_fill f _ t, declsO_fill f _ e]
  | n, .loop _ _ b => by simp only [fillS, decls, decls_fill f _ b]
  | n, .init _ _ l => by simp only [fillS, decls, declsL_fill f _ l]
  | n, .block _ l => by simp only [fillS, decls, declsL_fill f _ l]
  | n, .decl _ t x d => by simp only [fillS, decls, fillL_length]
  | n, .ret .. => by simp only [fillS, decls]
  | n, .subst .. => by simp only [fillS, decls]
  | n, .mult .. => by simp only [fillS, decls]
  | n, .under .. => by simp only [fillS, decls]
  | n, .ceq .. => by simp only [fillS, decls]
  | n, .log .. => by simp only [fillS, decls]
  | n, .assert .. => by simp only [fillS, decls]

theorem declsO_fill (f : Nat) : ∀ (n : Nat) (s : Option Stmt), declsO (fillO f n s).1 = declsO s
  | n, none => by simp only [fillO, declsO]
  | n, some s => by simp only [fillO, declsO, decls_fill f _ s]

theorem declsL_fill (f : Nat) : ∀ (n : Nat) (l : List Stmt), declsL (fillSs f n l).1 = declsL l
  | n, [] => by simp only [fillSs, declsL]
  | n, s :: l => by simp only [fillSs, declsL, decls_fill f _ s, declsL_fill f _ l]
end

mutual
theorem flat_fill (f : Nat) : ∀ (n : Nat) (s : Stmt), flat (fillS f n s).1 = flat s
  | n, .init _ _ l => by simp only [fillS, flat, flatL_fill f _ l]
  | n, .block _ l => by simp only [fillS, flat, flatL_fill f _ l]
  | n, .decl _ t x d => by simp only [fillS, flat, fillL_length]
  | n, .cond .. => by simp only [fillS, flat]
  | n, .loop .. => by simp only [fillS, flat]
  | n, .ret .. => by simp only [fillS, flat]
  | n, .subst .. => by simp only [fillS, flat]
  | n, .mult .. => by simp only [fillS, flat]
  | n, .under .. => by simp only [fillS, flat]
  | n, .ceq .. => by simp only [fillS, flat]
  | n, .log .. => by simp only [fillS, flat]
  | n, .assert .. => by simp only [fillS, flat]

theorem flatL_fill (f : Nat) : ∀ (n : Nat) (l : List Stmt), flatL (fillSs f n l).1 = flatL l
  | n, [] => by simp only [fillSs, flatL]
  | n, s :: l => by simp only [fillSs, flatL, flat_fill f _ s, flatL_fill f _ l]
end

/-! ### Tables -/

theorem get_filter {α : Type} (k x : String) (h : k ≠ x) :
    ∀ t : Table α, Table.get (t.filter fun e => decide (e.1 ≠ k)) x = t.get x
  | [] => rfl
  | e :: t => by
    by_cases he : e.1 = k
    · rw [List.filter_cons_of_neg (by simp [he]), get_filter k x h t, Table.get, if_neg (by rw [he]; exact h)]
    · rw [List.filter_cons_of_pos (by simp [he]), Table.get, Table.get, get_filter k x h t]

theorem get_insert {α : Type} (t : Table α) (k : String) (v : α) (x : String) :
    (t.insert k v).get x = if k = x then some v else t.get x := by
  unfold Table.insert
  rw [Table.get]
  split
  · rfl
  · next h => exact get_filter k x h t

theorem mem_of_get_none {α : Type} (k : String) : ∀ t : Table α, t.get k = none → ∀ e ∈ t, e.1 ≠ k
  | [], _ => by simp
  | e :: t, h => by
    rw [Table.get] at h
    split at h
    · exact absurd h (by simp)
    · next hk =>
      intro e' he'
      rcases List.mem_cons.1 he' with rfl | he'
      · exact hk
      · exact mem_of_get_none k t h e' he'

theorem insert_fresh {α : Type} (t : Table α) (k : String) (v : α) (h : t.get k = none) : t.insert k v = (k, v) :: t := by
  unfold Table.insert
  rw [List.filter_eq_self.2]
  intro e he
  exact decide_eq_true (mem_of_get_none k t h e he)

/-- The inputs and outputs among declarations: name, number of dimensions, bus and tags. -/
def wireOf (s : Sig) (d : VType × String × Nat) : Option (String × Wire) :=
  match d.1 with
  | .signal s' tags => if s' = s then some (d.2.1, ⟨none, d.2.2, tags⟩) else none
  | .bus b s' tags => if s' = s then some (d.2.1, ⟨some b, d.2.2, tags⟩) else none
  | _ => none

/-- The last wire with a name. -/
def lastWire (l : List (String × Wire)) (x : String) : Option Wire := ((l.filter fun e => e.1 = x).getLast?).map Prod.snd

theorem lastWire_snoc (l : List (String × Wire)) (e : String × Wire) (x : String) :
    lastWire (l ++ [e]) x = if e.1 = x then some e.2 else lastWire l x := by
  unfold lastWire
  rw [List.filter_append]
  by_cases h : e.1 = x
  · rw [List.filter_cons_of_pos (by simp [h]), if_pos h]
    simp
  · rw [List.filter_cons_of_neg (by simp [h]), if_neg h]
    simp

/-- The tables describe the wires `li` and `lo`. -/
def PortsOk (p : Ports) (li lo : List (String × Wire)) : Prop :=
  (∀ x, p.inputs.get x = lastWire li x) ∧ (∀ x, p.outputs.get x = lastWire lo x) ∧
  p.inputDecls = li.map (fun e => (e.1, e.2.dim)) ∧ p.outputDecls = lo.map (fun e => (e.1, e.2.dim))

theorem portsOk_step {p : Ports} {li lo : List (String × Wire)} (h : PortsOk p li lo) (d : VType × String × Nat) :
    PortsOk (p.declare d.1 d.2.1 d.2.2) (li ++ (wireOf .input d).toList) (lo ++ (wireOf .output d).toList) := by
  obtain ⟨t, x, n⟩ := d
  obtain ⟨h1, h2, h3, h4⟩ := h
  have base : PortsOk p li lo := ⟨h1, h2, h3, h4⟩
  rcases t with _ | ⟨s, tags⟩ | _ | _ | ⟨b, s, tags⟩
  · simpa [Ports.declare, wireOf] using base
  · cases s
    · simp only [Ports.declare, wireOf, PortsOk, reduceCtorEq, if_false, if_true, Option.toList, List.append_nil]
      exact ⟨h1, fun y => by rw [get_insert, lastWire_snoc, h2], h3, by simp [h4]⟩
    · simp only [Ports.declare, wireOf, PortsOk, reduceCtorEq, if_false, if_true, Option.toList, List.append_nil]
      exact ⟨fun y => by rw [get_insert, lastWire_snoc, h1], h2, by simp [h3], h4⟩
    · simpa [Ports.declare, wireOf] using base
  · simpa [Ports.declare, wireOf] using base
  · simpa [Ports.declare, wireOf] using base
  · cases s
    · simp only [Ports.declare, wireOf, PortsOk, reduceCtorEq, if_false, if_true, Option.toList, List.append_nil]
      exact ⟨h1, fun y => by rw [get_insert, lastWire_snoc, h2], h3, by simp [h4]⟩
    · simp only [Ports.declare, wireOf, PortsOk, reduceCtorEq, if_false, if_true, Option.toList, List.append_nil]
      exact ⟨fun y => by rw [get_insert, lastWire_snoc, h1], h2, by simp [h3], h4⟩
    · simpa [Ports.declare, wireOf] using base

theorem portsOk_fold : ∀ (l : List (VType × String × Nat)) (p : Ports) (li lo : List (String × Wire)), PortsOk p li lo →
    PortsOk (l.foldl (fun p d => p.declare d.1 d.2.1 d.2.2) p) (li ++ l.filterMap (wireOf .input)) (lo ++ l.filterMap (wireOf .output))
  | [], p, li, lo, h => by simpa using h
  | d :: l, p, li, lo, h => by
    have := portsOk_fold l _ _ _ (portsOk_step h d)
    rw [List.foldl_cons]
    have e : ∀ (s : Sig) (k : List (String × Wire)), k ++ (d :: l).filterMap (wireOf s) = k ++ (wireOf s d).toList ++ l.filterMap (wireOf s) := by
      intro s k
      rw [List.filterMap_cons]
      cases wireOf s d <;> simp
    rw [e, e]
    exact this

theorem portsOk (s : Stmt) :
    PortsOk (ports s ⟨[], [], [], []⟩) ((decls s).filterMap (wireOf .input)) ((decls s).filterMap (wireOf .output)) := by
  rw [ports_decls]
  exact portsOk_fold _ _ [] [] ⟨fun _ => rfl, fun _ => rfl, rfl, rfl⟩

/-- The tables describe the fields `l`. -/
def FieldsOk (p : Fields) (l : List (String × Wire)) : Prop :=
  (∀ x, p.fields.get x = lastWire l x) ∧ p.decls = l.map (fun e => (e.1, e.2.dim))

theorem fieldsOk_step {p : Fields} {k : List (String × Wire)} (h : FieldsOk p k) (d : VType × String × Nat) :
    FieldsOk (p.declare d.1 d.2.1 d.2.2) (k ++ (wireOf .intermediate d).toList) := by
  obtain ⟨t, x, n⟩ := d
  obtain ⟨h1, h3⟩ := h
  have base : FieldsOk p k := ⟨h1, h3⟩
  rcases t with _ | ⟨s, tags⟩ | _ | _ | ⟨b, s, tags⟩
  · simpa [Fields.declare, wireOf] using base
  · cases s
    · simpa [Fields.declare, wireOf] using base
    · simpa [Fields.declare, wireOf] using base
    · simp only [Fields.declare, wireOf, FieldsOk, if_true, Option.toList]
      exact ⟨fun y => by rw [get_insert, lastWire_snoc, h1], by simp [h3]⟩
  · simpa [Fields.declare, wireOf] using base
  · simpa [Fields.declare, wireOf] using base
  · cases s
    · simpa [Fields.declare, wireOf] using base
    · simpa [Fields.declare, wireOf] using base
    · simp only [Fields.declare, wireOf, FieldsOk, if_true, Option.toList]
      exact ⟨fun y => by rw [get_insert, lastWire_snoc, h1], by simp [h3]⟩

theorem fieldsOk_fold : ∀ (l : List (VType × String × Nat)) (p : Fields) (k : List (String × Wire)), FieldsOk p k →
    FieldsOk (l.foldl (fun p d => p.declare d.1 d.2.1 d.2.2) p) (k ++ l.filterMap (wireOf .intermediate))
  | [], p, k, h => by simpa using h
  | d :: l, p, k, h => by
    have := fieldsOk_fold l _ _ (fieldsOk_step h d)
    rw [List.foldl_cons]
    have e : k ++ (d :: l).filterMap (wireOf .intermediate) = k ++ (wireOf .intermediate d).toList ++ l.filterMap (wireOf .intermediate) := by
      rw [List.filterMap_cons]
      cases wireOf .intermediate d <;> simp
    rw [e]
    exact this

theorem fieldsOk (s : Stmt) : FieldsOk (fields s ⟨[], []⟩) ((flat s).filterMap (wireOf .intermediate)) := by
  rw [fields_flat]
  exact fieldsOk_fold _ _ [] ⟨fun _ => rfl, rfl⟩

/-! ### Merging -/

/-- All definitions with their files, in the order of the files and of the texts. -/
def defsOf (contents : List (Nat × List Def)) : List (Nat × Def) := contents.flatMap fun c => c.2.map fun d => (c.1, d)

/-- The definitions whose name is defined before. -/
def repeats : List String → List (Nat × Def) → List Report
  | _, [] => []
  | seen, e :: l => (if e.2.name ∈ seen then [⟨e.1, e.2.start, e.2.name⟩] else []) ++ repeats (e.2.name :: seen) l

theorem addOne_prefix (file : Nat) (g : Merger) (r r' : List Report) (d : Def) :
    addOne file (g, r ++ r') d = ((addOne file (g, r') d).1, r ++ (addOne file (g, r') d).2) := by
  unfold addOne
  dsimp only
  split
  · simp
  · cases d.kind <;> rfl

theorem fold_prefix (file : Nat) : ∀ (ds : List Def) (g : Merger) (r r' : List Report),
    ds.foldl (addOne file) (g, r ++ r') = ((ds.foldl (addOne file) (g, r')).1, r ++ (ds.foldl (addOne file) (g, r')).2)
  | [], g, r, r' => rfl
  | d :: ds, g, r, r' => by
    rw [List.foldl_cons, List.foldl_cons, addOne_prefix]
    have := fold_prefix file ds (addOne file (g, r') d).1 r (addOne file (g, r') d).2
    rw [this]

/-- One step over definitions with their files. -/
def step (s : Merger × List Report) (e : Nat × Def) : Merger × List Report := addOne e.1 s e.2

theorem mergeAll_eq (contents : List (Nat × List Def)) : mergeAll contents = (defsOf contents).foldl step (⟨0, [], [], []⟩, []) := by
  have gen : ∀ (cs : List (Nat × List Def)) (s : Merger × List Report),
      cs.foldl (fun s c =>
        let r := addDefinitions s.1 c.1 c.2
        (r.1, s.2 ++ r.2)) s = (defsOf cs).foldl step s := by
    intro cs
    induction cs with
    | nil => intro s; rfl
    | cons c cs ih =>
      intro s
      rw [List.foldl_cons, ih]
      have : defsOf (c :: cs) = (c.2.map fun d => (c.1, d)) ++ defsOf cs := rfl
      rw [this, List.foldl_append, List.foldl_map]
      have h := fold_prefix c.1 c.2 s.1 s.2 []
      rw [List.append_nil] at h
      show List.foldl step ((addDefinitions s.1 c.1 c.2).1, s.2 ++ (addDefinitions s.1 c.1 c.2).2) _ = List.foldl step (List.foldl (addOne c.1) (s.1, s.2) c.2) _
      rw [h]
      rfl
  exact gen contents _

theorem taken_false {g : Merger} {x : String} :
    g.taken x = false ↔ g.functions.get x = none ∧ g.templates.get x = none ∧ g.buses.get x = none := by
  unfold Merger.taken Table.has
  cases g.functions.get x <;> cases g.templates.get x <;> cases g.buses.get x <;> simp

theorem has_insert {α : Type} (t : Table α) (k : String) (v : α) (x : String) :
    (t.insert k v).has x = (decide (k = x) || t.has x) := by
  unfold Table.has
  rw [get_insert]
  by_cases h : k = x <;> simp [h]

theorem step_taken (s : Merger × List Report) (e : Nat × Def) (x : String) :
    (step s e).1.taken x = (decide (e.2.name = x) || s.1.taken x) := by
  unfold step addOne
  split
  · next h =>
    by_cases hx : e.2.name = x
    · subst hx
      simp [h]
    · simp [hx]
  · cases e.2.kind <;> simp only [Merger.taken, has_insert] <;> cases s.1.functions.has x <;> cases s.1.templates.has x <;>
      cases s.1.buses.has x <;> simp

theorem fold_reports : ∀ (l : List (Nat × Def)) (s : Merger × List Report) (seen : List String),
    (∀ x, s.1.taken x = true ↔ x ∈ seen) → (l.foldl step s).2 = s.2 ++ repeats seen l
  | [], s, seen, _ => by simp [repeats]
  | e :: l, s, seen, h => by
    rw [List.foldl_cons, fold_reports l (step s e) (e.2.name :: seen) (fun x => by
      rw [step_taken, Bool.or_eq_true, h, decide_eq_true_iff, List.mem_cons, eq_comm]), repeats, ← List.append_assoc]
    congr 1
    unfold step addOne
    by_cases ht : s.1.taken e.2.name = true
    · rw [if_pos ht, if_pos ((h _).1 ht)]
    · rw [if_neg ht, if_neg (fun hm => ht ((h _).2 hm)), List.append_nil]
      cases e.2.kind <;> rfl

theorem mergeAll_reports (contents : List (Nat × List Def)) : (mergeAll contents).2 = repeats [] (defsOf contents) := by
  rw [mergeAll_eq, fold_reports _ _ [] (fun x => by simp [Merger.taken, Table.has, Table.get]), List.nil_append]

theorem repeats_nil : ∀ (l : List (Nat × Def)) (seen : List String),
    repeats seen l = [] ↔ (l.map fun e => e.2.name).Nodup ∧ ∀ e ∈ l, e.2.name ∉ seen
  | [], seen => by simp [repeats]
  | e :: l, seen => by
    rw [repeats, List.append_eq_nil_iff, repeats_nil l, List.map_cons, List.nodup_cons]
    constructor
    · rintro ⟨h1, h2, h3⟩
      have hs : e.2.name ∉ seen := fun hm => by rw [if_pos hm] at h1; exact absurd h1 (by simp)
      refine ⟨⟨?_, h2⟩, ?_⟩
      · intro hm
        obtain ⟨e', he', hn⟩ := List.mem_map.1 hm
        exact h3 e' he' (by rw [hn]; exact List.mem_cons_self)
      · intro e' he'
        rcases List.mem_cons.1 he' with rfl | he'
        · exact hs
        · exact fun hm => h3 e' he' (List.mem_cons_of_mem _ hm)
    · rintro ⟨⟨h1, h2⟩, h3⟩
      refine ⟨if_neg (h3 e List.mem_cons_self), h2, ?_⟩
      intro e' he' hm
      rcases List.mem_cons.1 hm with hn | hm
      · exact h1 (List.mem_map.2 ⟨e', he', hn⟩)
      · exact h3 e' (List.mem_cons_of_mem _ he') hm

/-- A body of a table is the body of the definition, its nodes carrying the file. -/
def SameBody (file : Nat) (b : Stmt) (e : Nat × Def) : Prop :=
  file = e.1 ∧ erase b = erase e.2.body ∧ ∀ m ∈ metas b, m.file = some e.1

/-- The entry of the tables for a definition. -/
def Entry (fs : Table FunctionData) (ts : Table TemplateData) (bs : Table BusData) (e : Nat × Def) : Prop :=
  match e.2.kind with
  | .template par custom ext =>
    fs.get e.2.name = none ∧ bs.get e.2.name = none ∧
    ∃ T, ts.get e.2.name = some T ∧ SameBody T.file T.body e ∧ T.params = e.2.args ∧ T.parallel = par ∧ T.custom = custom ∧
      T.externC = ext ∧
      PortsOk T.ports ((decls e.2.body).filterMap (wireOf .input)) ((decls e.2.body).filterMap (wireOf .output))
  | .function =>
    ts.get e.2.name = none ∧ bs.get e.2.name = none ∧
    ∃ T, fs.get e.2.name = some T ∧ SameBody T.file T.body e ∧ T.params = e.2.args
  | .bus =>
    fs.get e.2.name = none ∧ ts.get e.2.name = none ∧
    ∃ T, bs.get e.2.name = some T ∧ SameBody T.file T.body e ∧ T.params = e.2.args ∧
      FieldsOk T.fields ((flat e.2.body).filterMap (wireOf .intermediate))

/-- All nodes of the bodies of the tables. -/
def allMetas (fs : Table FunctionData) (ts : Table TemplateData) (bs : Table BusData) : List Meta :=
  (fs.flatMap fun e => metas e.2.body) ++ (ts.flatMap fun e => metas e.2.body) ++ bs.flatMap fun e => metas e.2.body

/-- What holds after accepting the definitions `l`. -/
structure Inv (g : Merger) (l : List (Nat × Def)) : Prop where
  entry : ∀ e ∈ l, Entry g.functions g.templates g.buses e
  only : ∀ x, g.taken x = true ↔ x ∈ l.map fun e => e.2.name
  ids : ((allMetas g.functions g.templates g.buses).map Meta.elem).Perm (List.range g.fresh)
  len : (allMetas g.functions g.templates g.buses).length = g.fresh

theorem Entry.congr {fs fs' : Table FunctionData} {ts ts' : Table TemplateData} {bs bs' : Table BusData} {e : Nat × Def}
    (h : Entry fs ts bs e) (h1 : fs'.get e.2.name = fs.get e.2.name) (h2 : ts'.get e.2.name = ts.get e.2.name)
    (h3 : bs'.get e.2.name = bs.get e.2.name) : Entry fs' ts' bs' e := by
  unfold Entry at h ⊢
  rw [h1, h2, h3]
  exact h

/-- Adding the numbers of a new body. -/
theorem ids_add {a b c : List Meta} {f n n' : Nat} (h : ((a ++ c).map Meta.elem).Perm (List.range n)) (hl : (a ++ c).length = n)
    (hb : Numbered f n n' b) : ((a ++ (b ++ c)).map Meta.elem).Perm (List.range n') ∧ (a ++ (b ++ c)).length = n' := by
  obtain ⟨h1, h2, -⟩ := hb
  constructor
  · have e : (a ++ (b ++ c)).Perm ((a ++ c) ++ b) := by
      rw [List.append_assoc]
      exact (List.perm_append_comm).append_left a
    refine (e.map _).trans ?_
    rw [List.map_append, h1, List.range_eq_range', ← List.range'_append_1, ← List.range_eq_range', Nat.zero_add]
    exact h.append h2
  · simp only [List.length_append] at hl ⊢
    omega

theorem inv_step {s : Merger × List Report} {l : List (Nat × Def)} (h : Inv s.1 l) (e : Nat × Def)
    (hn : e.2.name ∉ l.map fun e => e.2.name) : Inv (step s e).1 (l ++ [e]) := by
  have ht : s.1.taken e.2.name = false := by
    rw [← Bool.not_eq_true, h.only]
    exact hn
  obtain ⟨hf, htp, hb⟩ := taken_false.1 ht
  have hne : ∀ e' ∈ l, e.2.name ≠ e'.2.name := fun e' he' hq => hn (List.mem_map.2 ⟨e', he', hq.symm⟩)
  have only : ∀ x, (step s e).1.taken x = true ↔ x ∈ (l ++ [e]).map fun e => e.2.name := by
    intro x
    rw [step_taken, Bool.or_eq_true, h.only, decide_eq_true_iff, List.map_append, List.mem_append, List.map_cons, List.map_nil,
      List.mem_singleton, or_comm, eq_comm]
  have hnum := numberedS e.1 s.1.fresh e.2.body
  have same : SameBody e.1 (fillS e.1 s.1.fresh e.2.body).1 e := ⟨rfl, erase_fill _ _ _, hnum.2.2⟩
  have hids := h.ids
  have hlen := h.len
  have hstep : (step s e).1 = (match e.2.kind with
    | .template par custom ext =>
      { s.1 with fresh := (fillS e.1 s.1.fresh e.2.body).2
                 templates := s.1.templates.insert e.2.name ⟨e.1, (fillS e.1 s.1.fresh e.2.body).1, e.2.args, par, custom, ext,
                  ports (fillS e.1 s.1.fresh e.2.body).1 ⟨[], [], [], []⟩⟩ }
    | .function => { s.1 with fresh := (fillS e.1 s.1.fresh e.2.body).2,
                              functions := s.1.functions.insert e.2.name ⟨e.1, (fillS e.1 s.1.fresh e.2.body).1, e.2.args⟩ }
    | .bus => { s.1 with fresh := (fillS e.1 s.1.fresh e.2.body).2,
                         buses := s.1.buses.insert e.2.name ⟨e.1, (fillS e.1 s.1.fresh e.2.body).1, e.2.args,
                          fields (fillS e.1 s.1.fresh e.2.body).1 ⟨[], []⟩⟩ }) := by
    unfold step addOne
    rw [if_neg (by rw [ht]; simp)]
    cases e.2.kind <;> rfl
  rcases hk : e.2.kind with ⟨par, custom, ext⟩ | _ | _
  · rw [hk] at hstep
    dsimp only at hstep
    have hi := ids_add (f := e.1) (a := s.1.functions.flatMap fun e => metas e.2.body)
      (c := (s.1.templates.flatMap fun e => metas e.2.body) ++ s.1.buses.flatMap fun e => metas e.2.body)
      (by rw [← List.append_assoc]; exact hids) (by rw [← List.append_assoc]; exact hlen) hnum
    have ha : allMetas (step s e).1.functions (step s e).1.templates (step s e).1.buses =
        (s.1.functions.flatMap fun e => metas e.2.body) ++ (metas (fillS e.1 s.1.fresh e.2.body).1 ++
          ((s.1.templates.flatMap fun e => metas e.2.body) ++ s.1.buses.flatMap fun e => metas e.2.body)) := by
      rw [hstep, insert_fresh _ _ _ htp]
      simp only [allMetas, List.flatMap_cons, List.append_assoc]
    refine ⟨?_, only, by rw [ha, hstep]; exact hi.1, by rw [ha, hstep]; exact hi.2⟩
    intro e' he'
    rw [hstep]
    rcases List.mem_append.1 he' with he' | he'
    · exact (h.entry e' he').congr rfl (by rw [get_insert, if_neg (hne e' he')]) rfl
    · rw [List.mem_singleton.1 he']
      unfold Entry
      rw [hk]
      refine ⟨hf, hb, _, by rw [get_insert, if_pos rfl], same, rfl, rfl, rfl, rfl, ?_⟩
      have := portsOk (fillS e.1 s.1.fresh e.2.body).1
      rw [decls_fill] at this
      exact this
  · rw [hk] at hstep
    dsimp only at hstep
    have hi := ids_add (f := e.1) (a := [])
      (c := (s.1.functions.flatMap fun e => metas e.2.body) ++ (s.1.templates.flatMap fun e => metas e.2.body) ++ s.1.buses.flatMap fun e => metas e.2.body)
      hids hlen hnum
    have ha : allMetas (step s e).1.functions (step s e).1.templates (step s e).1.buses =
        [] ++ (metas (fillS e.1 s.1.fresh e.2.body).1 ++ ((s.1.functions.flatMap fun e => metas e.2.body) ++
          (s.1.templates.flatMap fun e => metas e.2.body) ++ s.1.buses.flatMap fun e => metas e.2.body)) := by
      rw [hstep, insert_fresh _ _ _ hf]
      simp only [allMetas, List.flatMap_cons, List.append_assoc, List.nil_append]
    refine ⟨?_, only, by rw [ha, hstep]; exact hi.1, by rw [ha, hstep]; exact hi.2⟩
    intro e' he'
    rw [hstep]
    rcases List.mem_append.1 he' with he' | he'
    · exact (h.entry e' he').congr (by rw [get_insert, if_neg (hne e' he')]) rfl rfl
    · rw [List.mem_singleton.1 he']
      unfold Entry
      rw [hk]
      exact ⟨htp, hb, _, by rw [get_insert, if_pos rfl], same, rfl⟩
  · rw [hk] at hstep
    dsimp only at hstep
    have hi := ids_add (f := e.1) (a := (s.1.functions.flatMap fun e => metas e.2.body) ++ s.1.templates.flatMap fun e => metas e.2.body)
      (c := s.1.buses.flatMap fun e : String × BusData => metas e.2.body)
      hids hlen hnum
    have ha : allMetas (step s e).1.functions (step s e).1.templates (step s e).1.buses =
        ((s.1.functions.flatMap fun e => metas e.2.body) ++ s.1.templates.flatMap fun e => metas e.2.body) ++
          (metas (fillS e.1 s.1.fresh e.2.body).1 ++ s.1.buses.flatMap fun e => metas e.2.body) := by
      rw [hstep, insert_fresh _ _ _ hb]
      simp only [allMetas, List.flatMap_cons, List.append_assoc]
    refine ⟨?_, only, by rw [ha, hstep]; exact hi.1, by rw [ha, hstep]; exact hi.2⟩
    intro e' he'
    rw [hstep]
    rcases List.mem_append.1 he' with he' | he'
    · exact (h.entry e' he').congr rfl rfl (by rw [get_insert, if_neg (hne e' he')])
    · rw [List.mem_singleton.1 he']
      unfold Entry
      rw [hk]
      refine ⟨hf, htp, _, by rw [get_insert, if_pos rfl], same, rfl, ?_⟩
      have := fieldsOk (fillS e.1 s.1.fresh e.2.body).1
      rw [flat_fill] at this
      exact this

theorem inv_fold : ∀ (l k : List (Nat × Def)) (s : Merger × List Report), Inv s.1 k → ((k ++ l).map fun e => e.2.name).Nodup →
    Inv (l.foldl step s).1 (k ++ l)
  | [], k, s, h, _ => by simpa using h
  | e :: l, k, s, h, hd => by
    rw [List.foldl_cons, List.append_cons]
    refine inv_fold l (k ++ [e]) (step s e) (inv_step h e ?_) (by rw [← List.append_cons]; exact hd)
    rw [List.map_append, List.map_cons] at hd
    intro hm
    exact (List.nodup_append.1 hd).2.2 _ hm _ List.mem_cons_self rfl

theorem inv_mergeAll {contents : List (Nat × List Def)} (h : ((defsOf contents).map fun e => e.2.name).Nodup) :
    Inv (mergeAll contents).1 (defsOf contents) := by
  rw [mergeAll_eq]
  exact inv_fold _ [] _ ⟨by simp, fun x => by simp [Merger.taken, Table.has, Table.get], by simp [allMetas], by simp [allMetas]⟩ h

end Verif.Archive
