import Verif.SymTextLemmas

/-! # C99: the symbol file can be read back -/

namespace Verif.Props.SymText

open Verif.ModArith (Res)
open Verif.Algebra
open Verif.Dag Verif.SymText
open Verif.Props.Algebra (ok_bind)
open Verif.Props.Dag
open Verif.Props.Simplification
open Verif.Simplification

variable {p : Nat}

/-- **C99 (text).**  Lines whose names contain neither commas nor line ends are read back from the text unchanged and in order; so two
different tables never have the same text. -/
theorem C99_read (l : List SymElem) (h : ∀ e ∈ l, ',' ∉ e.symbol ∧ '\n' ∉ e.symbol) :
    readFile (text l) = some l ∧ ∀ l', (∀ e ∈ l', ',' ∉ e.symbol ∧ '\n' ∉ e.symbol) → text l' = text l → l' = l := by
  refine ⟨read_text h, fun l' h' e => ?_⟩
  have := read_text h'
  rw [e, read_text h] at this
  exact (Option.some.inj this).symm

/-- **C99 (without simplification, partial).**  From the symbol file of a program a reader finds a line for each signal, with its qualified
name and the number `1..n` that is both its number and its position in the witness.  Missing: as in C34. -/
theorem C99_plain_partial {ts : List Template} (h : Program p ts) (hc : CleanProgram ts) :
    ∃ d t lines, buildDag ts = .ok d ∧ dagText d = .ok t ∧ readFile t = some lines ∧
      lines.map SymElem.original = (List.range' 1 (qualified (allComponents ts)).length).map (fun n : Nat => (n : Int)) ∧
      lines.map SymElem.symbol = qualified (allComponents ts) ∧ (qualified (allComponents ts)).Nodup ∧
      ∀ l ∈ lines, l.witness = l.original := by
  obtain ⟨d, h1, hb⟩ := buildDag_spec h.resolves
  have hs := sym_spec h.named h.nonempty
  refine ⟨d, _, _, h1, ?_, read_text (clean_lines hc hs.2.1), hs.1, hs.2.1, hs.2.2, fun l hl => ?_⟩
  · unfold dagText
    rw [dagSym_eq h.named.order hb h.nonempty, ok_bind]
  · obtain ⟨y, -, hl⟩ := List.mem_flatMap.1 hl
    unfold symLines at hl
    obtain ⟨e, -, rfl⟩ := List.mem_map.1 hl
    rfl

/-- **C99 (with simplification, partial).**  The file has the same signals with the same numbers; the second number is the position in the
witness, or -1 exactly for the signals that were eliminated.  Missing: as in C34. -/
theorem C99_simplified_partial (hp : p.Prime) (sched : Sched) (hs : sched.Valid) (fuel : List (Constraint Nat) → Nat) (hfuel : EnoughFuel fuel)
    {ts : List Template} (h : Program p ts) (hc : CleanProgram ts) (flags : Flags) :
    ∃ d smp enc out t lines, buildDag ts = .ok d ∧ mapDag d p flags = .ok (smp, enc) ∧ simplification sched fuel smp = .ok out ∧
      listText enc out.map = .ok t ∧ readFile t = some lines ∧
      lines.map SymElem.original = (List.range' 1 (qualified (allComponents ts)).length).map (fun n : Nat => (n : Int)) ∧
      lines.map SymElem.symbol = qualified (allComponents ts) ∧
      ∀ l ∈ lines, (l.witness = -1 ↔ BMap.get out.map l.original.toNat = none) ∧
        ∀ i, BMap.get out.map l.original.toNat = some i → l.witness = i := by
  obtain ⟨d, smp, enc, out, lines, h1, h2, h3, h4, h5, h6, h7⟩ := Export.C31_symbols_program_partial hp sched hs fuel hfuel h flags
  refine ⟨d, smp, enc, out, _, lines, h1, h2, h3, ?_, read_text (clean_lines hc h6), h5, h6, h7⟩
  unfold listText
  rw [h4, ok_bind]

/-! ### Cases meeting the hypotheses -/

example : CleanProgram demo := by decide +kernel

example : Program 13 demo := demo_program

example : text [⟨1, 1, 2, "main.out".toList⟩, ⟨2, -1, 2, "main.in[1][0].x".toList⟩] = "1,1,2,main.out\n2,-1,2,main.in[1][0].x\n".toList := by
  decide +kernel

example : readFile "1,1,2,main.out\n2,-1,2,main.in[1][0].x\n".toList =
    some [⟨1, 1, 2, "main.out".toList⟩, ⟨2, -1, 2, "main.in[1][0].x".toList⟩] := by decide +kernel

end Verif.Props.SymText
