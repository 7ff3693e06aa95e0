import Verif.RunParser

/-!
# C105: a program has one main component
-/

namespace Verif.Props.RunParser
open Verif.RunParser

variable {M D A R : Type} {P : Parts M D A R}

theorem mains_append (a b : List (File M D)) : mains (a ++ b) = mains a ++ mains b := by
  induction a with
  | nil => rfl
  | cons f l ih =>
    rw [List.cons_append, mains, mains, ih]
    cases f.main <;> rfl

theorem mains_nil {l : List (File M D)} : mains l = [] ↔ ∀ f ∈ l, f.main = none := by
  induction l with
  | nil => simp [mains]
  | cons f l ih =>
    rw [mains]
    cases h : f.main with
    | none => simp [ih, h]
    | some m => simp [h]

theorem mains_cons {l : List (File M D)} {x : Nat × M × Bool} {t : List (Nat × M × Bool)} (h : mains l = x :: t) :
    ∃ a f b, l = a ++ f :: b ∧ f.main = some x.2.1 ∧ x = (f.id, x.2.1, f.custom) ∧ (∀ g ∈ a, g.main = none) ∧ mains b = t := by
  induction l with
  | nil => cases h
  | cons f l ih =>
    rw [mains] at h
    cases hm : f.main with
    | none =>
      rw [hm] at h
      obtain ⟨a, g, b, e, h1, h2, h3, h4⟩ := ih h
      refine ⟨f :: a, g, b, by rw [e]; rfl, h1, h2, fun k mk => ?_, h4⟩
      rcases List.mem_cons.1 mk with rfl | mk
      · exact hm
      · exact h3 k mk
    | some m =>
      rw [hm] at h
      cases h
      exact ⟨[], f, l, rfl, hm, rfl, by simp, rfl⟩

/-- C105.  A program goes on exactly if one file of it, and no other, has a main component, no pragma is missing and the archive and the
rewriting do well; the archive is made of that main component, with the number and the pragma of its file, and of the definitions of all files in their
order.  The warnings are handed on. -/
theorem C105_accept (files : List (File M D)) (ws ws' : List (Rep M R)) (a' : A) :
    finish P files ws = .ok (a', ws') ↔
    ws' = ws ∧ P.paths = [] ∧ ∃ before f after m a, files = before ++ f :: after ∧ f.main = some m ∧
      (∀ g ∈ before, g.main = none) ∧ (∀ g ∈ after, g.main = none) ∧
      P.archive f.id m (files.map fun f => (f.id, f.defs)) f.custom = .ok a ∧ P.sugar a = .ok a' := by
  constructor
  · intro h
    unfold finish at h
    split at h
    · cases h
    · cases h
    · rename_i id m custom hm
      obtain ⟨b, f, c, e, h1, h2, h3, h4⟩ := mains_cons hm
      cases h2
      split at h
      · cases h
      · rename_i hp
        split at h
        · cases h
        · rename_i x hx
          split at h
          · cases h
          · rename_i y hy
            cases h
            exact ⟨rfl, hp, b, f, c, m, x, e, h1, h3, mains_nil.1 h4, hx, hy⟩
  · rintro ⟨rfl, hp, b, f, c, m, x, e, h1, h3, h4, hx, hy⟩
    have : mains files = [(f.id, m, f.custom)] := by
      rw [e, mains_append, mains_nil.2 h3, mains, h1, mains_nil.2 h4]
      rfl
    unfold finish
    rw [this, hp]
    dsimp only
    rw [hx]
    dsimp only
    rw [hy]

theorem labels_pos (j : Nat) (hj : 0 < j) (l : List (Nat × M × Bool)) : labels j l = ([], l.map fun x => (x.1, x.2.1)) := by
  induction l generalizing j with
  | nil => rfl
  | cons x l ih => obtain ⟨i, m, c⟩ := x; simp [labels, ih (j + 1) (by omega), hj]

/-- C105.  Without a main component in any file the program is refused for that, after the warnings. -/
theorem C105_none (files : List (File M D)) (ws : List (Rep M R)) (h : ∀ f ∈ files, f.main = none) :
    finish P files ws = .error (ws ++ [.noMain]) := by
  unfold finish
  rw [mains_nil.2 h]

/-- C105.  With main components in two files or more the program is refused, whatever else is wrong; the report has the first of them as its primary
place, and each of the others, in the order of the files, as a further one. -/
theorem C105_several (before between after : List (File M D)) (f g : File M D) (m k : M) (ws : List (Rep M R))
    (hf : f.main = some m) (hg : g.main = some k) (h1 : ∀ x ∈ before, x.main = none) (h2 : ∀ x ∈ between, x.main = none) :
    ∃ rest : List (Nat × M), finish P (before ++ f :: between ++ g :: after) ws =
        .error (ws ++ [.multipleMain [(f.id, m)] ((g.id, k) :: rest)]) ∧
      rest = after.filterMap fun x => x.main.map fun n => (x.id, n) := by
  have e : mains (before ++ f :: between ++ g :: after) = (f.id, m, f.custom) :: (g.id, k, g.custom) :: mains after := by
    rw [mains_append, mains_append, mains_nil.2 h1, mains, hf, mains_nil.2 h2, mains, hg]
    rfl
  have r : ∀ l : List (File M D), (mains l).map (fun x => (x.1, x.2.1)) = l.filterMap fun x => x.main.map fun n => (x.id, n) := by
    intro l
    induction l with
    | nil => rfl
    | cons x l ih =>
      rw [mains]
      cases hx : x.main <;> simp [hx, ih]
  refine ⟨_, ?_, rfl⟩
  unfold finish
  rw [e]
  simp only [labels]
  rw [labels_pos 2 (by omega), r]
  rfl

/-- Main components and definitions are texts; the archive is the list of all of it. -/
def demo : Parts String String (List String) String where
  paths := []
  archive i m ds c := if m = "bad" then .error ["bad"] else .ok (toString i :: m :: toString c :: ds.flatMap (·.2))
  sugar a := .ok (a ++ ["sugar"])

def lib1 : File String String := ⟨0, none, false, ["T", "f"]⟩
def top : File String String := ⟨1, some "T()", true, ["U"]⟩
def lib2 : File String String := ⟨2, none, false, ["V"]⟩
def other : File String String := ⟨3, some "V()", false, ["V"]⟩

example : finish demo [lib1, top, lib2] [.other "w"] = .ok (["1", "T()", "true", "T", "f", "U", "V", "sugar"], [.other "w"]) :=
  (C105_accept _ _ _ _).2 ⟨rfl, rfl, [lib1], top, [lib2], "T()", _, rfl, rfl, by simp [lib1], by simp [lib2], rfl, rfl⟩
example : finish demo [lib1, lib2] [.other "w"] = .error [.other "w", .noMain] := C105_none _ _ (by simp [lib1, lib2])
example : ∃ rest, finish demo [lib1, top, lib2, other, other] [] = .error [.multipleMain [(1, "T()")] ((3, "V()") :: rest)] ∧ rest = [(3, "V()")] :=
  C105_several [lib1] [lib2] [other] top other "T()" "V()" [] rfl rfl (by simp [lib1]) (by simp [lib2])

end Verif.Props.RunParser
