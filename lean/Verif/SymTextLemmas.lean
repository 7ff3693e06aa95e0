import Verif.SymText
import Verif.JsonOutLemmas
import Verif.Props.Export

/-! Reading back the text of the symbol file. -/

namespace Verif.SymText

open Verif.Dag
open Verif.Props.Dag (components allComponents ownNames qualified mainPath)

theorem cut_free {c : Char} : ∀ {a : Text}, c ∉ a → cut c a = [a]
  | [], _ => rfl
  | x :: a, h => by
    have hx : x ≠ c := fun e => h (e ▸ List.mem_cons_self)
    rw [cut, if_neg hx, cut_free fun h' => h (List.mem_cons_of_mem _ h')]

theorem cut_append {c : Char} : ∀ {a : Text} (b : Text), c ∉ a → cut c (a ++ c :: b) = a :: cut c b
  | [], b, _ => by rw [List.nil_append, cut, if_pos rfl]
  | x :: a, b, h => by
    have hx : x ≠ c := fun e => h (e ▸ List.mem_cons_self)
    rw [List.cons_append, cut, if_neg hx, cut_append b fun h' => h (List.mem_cons_of_mem _ h')]

/-- Neither a comma nor a line end. -/
def Clean (t : Text) : Prop := ',' ∉ t ∧ '\n' ∉ t

instance (t : Text) : Decidable (Clean t) := by unfold Clean; infer_instance

theorem clean_append {a b : Text} : Clean (a ++ b) ↔ Clean a ∧ Clean b := by
  unfold Clean
  simp only [List.mem_append, not_or]
  tauto

theorem clean_cons {x : Char} {b : Text} : Clean (x :: b) ↔ (x ≠ ',' ∧ x ≠ '\n') ∧ Clean b := by
  unfold Clean
  simp only [List.mem_cons, not_or]
  constructor
  · rintro ⟨⟨a, b⟩, c, d⟩
    exact ⟨⟨Ne.symm a, Ne.symm c⟩, b, d⟩
  · rintro ⟨⟨a, c⟩, b, d⟩
    exact ⟨⟨Ne.symm a, b⟩, Ne.symm c, d⟩

theorem clean_digits (n : Nat) : Clean (Nat.toDigits 10 n) := by
  constructor <;> intro h <;> have := JsonOut.digit_range h <;> revert this <;> decide

theorem clean_number (v : Int) : Clean (JsonOut.number v) := by
  unfold JsonOut.number
  split
  · exact clean_cons.2 ⟨by decide, clean_digits _⟩
  · exact clean_digits _

theorem read_line {e : SymElem} (h : Clean e.symbol) : readLine (line e) = some e := by
  unfold readLine line
  rw [cut_append _ (clean_number _).1, cut_append _ (clean_number _).1, cut_append _ (clean_number _).1, cut_free h.1]
  dsimp only
  rw [JsonOut.intOf_number, JsonOut.intOf_number, JsonOut.intOf_number]

theorem line_free {e : SymElem} (h : Clean e.symbol) : '\n' ∉ line e := by
  unfold line
  simp only [List.mem_append, List.mem_cons, not_or]
  exact ⟨(clean_number _).2, by decide, (clean_number _).2, by decide, (clean_number _).2, by decide, h.2⟩

theorem text_append (l : List SymElem) (a : Text) : l.foldl writeElem a = a ++ l.flatMap fun e => line e ++ ['\n'] := by
  induction l generalizing a with
  | nil => simp
  | cons e l ih => rw [List.foldl_cons, ih, writeElem, List.flatMap_cons]; simp

theorem text_eq (l : List SymElem) : text l = l.flatMap fun e => line e ++ ['\n'] := by
  rw [text, text_append, List.nil_append]

theorem cut_text {l : List SymElem} (h : ∀ e ∈ l, Clean e.symbol) : cut '\n' (text l) = l.map line ++ [[]] := by
  rw [text_eq]
  induction l with
  | nil => rfl
  | cons e l ih =>
    rw [List.flatMap_cons, List.append_assoc, List.singleton_append, cut_append _ (line_free (h e List.mem_cons_self)),
      ih fun e' h' => h e' (List.mem_cons_of_mem _ h')]
    rfl

theorem mapM_lines {l : List SymElem} (h : ∀ e ∈ l, Clean e.symbol) : (l.map line).mapM readLine = some l := by
  induction l with
  | nil => rfl
  | cons e l ih =>
    rw [List.map_cons, List.mapM_cons, read_line (h e List.mem_cons_self), ih fun e' h' => h e' (List.mem_cons_of_mem _ h')]
    rfl

theorem read_text {l : List SymElem} (h : ∀ e ∈ l, Clean e.symbol) : readFile (text l) = some l := by
  unfold readFile
  rw [cut_text h, List.getLast?_concat, List.dropLast_concat]
  exact mapM_lines h

/-! ### Names -/

/-- Identifiers without commas and line ends; the rule for identifiers (parser/src/lang.lalrpop:846-848) has letters, digits, `_` and
`$`. -/
def CleanWires : Wires → Prop
  | .nil => True
  | .signal n _ rest => Clean n ∧ CleanWires rest
  | .bus n _ f rest => Clean n ∧ CleanWires f ∧ CleanWires rest

def decCleanWires : (w : Wires) → Decidable (CleanWires w)
  | .nil => isTrue trivial
  | .signal n _ rest => by unfold CleanWires; have := decCleanWires rest; infer_instance
  | .bus n _ f rest => by unfold CleanWires; have := decCleanWires rest; have := decCleanWires f; infer_instance

instance (w : Wires) : Decidable (CleanWires w) := decCleanWires w

theorem clean_array : ∀ (ds : List Nat) (n : Name), Clean n → ∀ s ∈ arrayNames n ds, Clean s
  | [], n, h, s, hs => by
    rw [arrayNames, List.mem_singleton] at hs
    rwa [hs]
  | d :: ds, n, h, s, hs => by
    rw [arrayNames, List.mem_flatMap] at hs
    obtain ⟨i, -, hs⟩ := hs
    refine clean_array ds _ ?_ s hs
    exact clean_append.2 ⟨clean_append.2 ⟨h, clean_cons.2 ⟨by decide, clean_digits _⟩⟩, by decide⟩

theorem clean_names : ∀ (w : Wires) (pre : Name), CleanWires w → Clean pre → ∀ s ∈ w.names pre, Clean s
  | .nil, _, _, _, s, hs => by simp [Wires.names] at hs
  | .signal n ds rest, pre, hw, hp, s, hs => by
    rw [Wires.names, List.mem_append] at hs
    rcases hs with hs | hs
    · exact clean_array _ _ (clean_append.2 ⟨hp, hw.1⟩) s hs
    · exact clean_names rest pre hw.2 hp s hs
  | .bus n ds f rest, pre, hw, hp, s, hs => by
    rw [Wires.names, List.mem_append, List.mem_flatMap] at hs
    rcases hs with ⟨b, hb, hs⟩ | hs
    · have := clean_array _ _ (clean_append.2 ⟨hp, hw.1⟩) b hb
      exact clean_names f _ hw.2.1 (clean_append.2 ⟨this, by decide⟩) s hs
    · exact clean_names rest pre hw.2.2 hp s hs

/-- The identifiers of a program: of signals, buses and their fields, and the labels of components. -/
def CleanProgram (ts : List Template) : Prop :=
  ∀ t ∈ ts, CleanWires t.outputs ∧ CleanWires t.publicInputs ∧ CleanWires t.privateInputs ∧ CleanWires t.intermediates ∧
    ∀ c ∈ t.connexions, Clean c.1

instance (ts : List Template) : Decidable (CleanProgram ts) := by unfold CleanProgram; infer_instance

theorem clean_components {ts : List Template} (h : CleanProgram ts) : ∀ (f i : Nat) (path : Name), Clean path →
    ∀ c ∈ components ts f i path, c.1 ∈ ts ∧ Clean c.2
  | 0, _, _, _, c, hc => by simp [components] at hc
  | f + 1, i, path, hp, c, hc => by
    rw [components] at hc
    split at hc
    · simp at hc
    · next t ht =>
      have htm := List.mem_of_getElem? ht
      rcases List.mem_cons.1 hc with rfl | hc
      · exact ⟨htm, hp⟩
      · rw [List.mem_flatMap] at hc
        obtain ⟨k, hk, hc⟩ := hc
        exact clean_components h f _ _ (clean_append.2 ⟨hp, clean_cons.2 ⟨by decide, (h t htm).2.2.2.2 k hk⟩⟩) c hc

theorem clean_qualified {ts : List Template} (h : CleanProgram ts) : ∀ s ∈ qualified (allComponents ts), Clean s := by
  intro s hs
  unfold qualified at hs
  rw [List.mem_flatMap] at hs
  obtain ⟨c, hc, hs⟩ := hs
  obtain ⟨n, hn, rfl⟩ := List.mem_map.1 hs
  obtain ⟨hm, hp⟩ := clean_components h _ _ _ (by decide : Clean mainPath) c hc
  obtain ⟨h1, h2, h3, h4, -⟩ := h c.1 hm
  refine clean_append.2 ⟨hp, clean_cons.2 ⟨by decide, ?_⟩⟩
  have e : Clean [] := by decide
  unfold ownNames at hn
  simp only [List.mem_append] at hn
  rcases hn with ((hn | hn) | hn) | hn
  · exact clean_names _ _ h1 e n hn
  · exact clean_names _ _ h2 e n hn
  · exact clean_names _ _ h3 e n hn
  · exact clean_names _ _ h4 e n hn

theorem clean_lines {ts : List Template} (h : CleanProgram ts) {l : List SymElem} (hl : l.map SymElem.symbol = qualified (allComponents ts)) :
    ∀ e ∈ l, Clean e.symbol :=
  fun e he => clean_qualified h _ (hl ▸ List.mem_map_of_mem he)

end Verif.SymText
