import Verif.SlotsLemmas

/-!
C54: temporaries of the generated code. The generated code keeps intermediate results in an array
`expaux` of the size computed by the numbering. Two results that are needed at the same time are in
different places exactly if executing the code gives the values the expressions have by their
structure; so that is what is proved, for whatever the array holds at the start. Reading or writing
beyond the end of the array is a failure of the execution.
-/

namespace Verif.Props.Slots

open Verif Verif.Slots

variable {V O K F M : Type} (S : Sem V O K F M)

/-- Every instruction with a value, numbered from any start: with an array of the computed size, the
code gives the value of the instruction, and leaves the places below the start as they were. -/
theorem C54_value (m : M) (e : E V O K) (fresh n : Nat) (σ : Nat → V) (h : (opnd e fresh).2.1 ≤ n) :
    ∃ σ', runE S n m (opnd e fresh).1 σ = some (evalE S m e, σ') ∧ ∀ i < fresh, σ' i = σ i :=
  runE_ok S m σ h

/-- Lists of addresses (component and location of a load or store): when all code has been executed, the
text of all addresses is right. -/
theorem C54_addresses (m : M) (as : List (A V O K)) (fresh n : Nat) (σ : Nat → V)
    (h : (addrs as fresh fresh).2.1 ≤ n) :
    ∃ σ', runAs S n m (addrs as fresh fresh).1 σ = some (evalAs S m as, σ') ∧
      ∀ i < fresh, σ' i = σ i := by
  obtain ⟨σ', h1, h2, _⟩ := runAs_ok S m σ h
  exact ⟨σ', h1, h2⟩

/-- Whole bodies, with the size of the array as computed (`build_auxiliary_stack`): the same result as
without temporaries, if in stores that send notifications, or whose size depends on the component read,
the text evaluated late names no temporaries. -/
theorem C54_program_partial (prog : List (Stmt V O K F)) (hp : PlainL S prog) (fuel : Nat) (m : M)
    (σ : Nat → V) :
    erase (execL S (buildList prog 0 0).2 fuel (buildList prog 0 0).1 m σ) = dirL S fuel prog m :=
  execL_ok S fuel prog 0 0 m σ hp (le_refl _)

/-! Cases: numbers as values, addition and multiplication, a memory that records what is done. Loads of
kind `k` give `k` plus the sum of the indices. -/

abbrev Ex := E Nat Bool Nat
abbrev Ax := A Nat Bool Nat

def sem : Sem Nat Bool Nat Unit (List (List Nat)) where
  op := fun mul vs => if mul then vs.foldl (· * ·) 1 else vs.sum
  toInt := id
  isTrue := fun v => v != 0
  read := fun _ k l => k + l.sum
  write := fun m k c d v z => m ++ [[k, c] ++ d ++ [v, z]]
  notify := fun m d z => m ++ [d ++ [z]]
  call := fun m _ vs k x d z => m ++ [vs ++ [k, x] ++ d ++ [z]]
  print := fun m v => m ++ [[v]]
  create := fun m v => m ++ [[v]]

/-- A variable with value `k`. -/
def lv (k : Nat) : Ex := .load k []

/-- `a[i * j] * (x + a[k * l + 3])`. -/
def exE : Ex :=
  .comp 0 true [.load 7 [.toAddr (.comp 0 true [lv 2, lv 3])],
    .comp 0 false [lv 5, .load 7 [.arith false (.toAddr (.comp 0 true [lv 4, lv 6])) (.num 3)]]]

example : (opnd exE 0).2.1 = 4 ∧
    (runE sem 4 [] (opnd exE 0).1 (fun _ => 0)).map Prod.fst = some ((7 + 6) * (5 + (7 + (24 + 3)))) ∧
    (runE sem 3 [] (opnd exE 0).1 (fun _ => 0)).map Prod.fst = none := by decide +kernel

example : (addrs [.toAddr (.comp 0 true [lv 2, lv 3]), (.toAddr (.comp 0 true [lv 4, lv 6]) : Ax)] 5 5).2.1
      = 7 ∧
    (runAs sem 7 [] (addrs [.toAddr (.comp 0 true [lv 2, lv 3]), (.toAddr (.comp 0 true [lv 4, lv 6]) : Ax)]
      5 5).1 (fun _ => 0)).map Prod.fst = some [6, 24] := by decide +kernel

/-- `if (1) { a[i * j] = exE } log(x + y)`. -/
def exProg : List (Stmt Nat Bool Nat Unit) :=
  [.branch (.val 0 1) [.store ⟨none, none, [.toAddr (.comp 0 true [lv 2, lv 3])], exE, 9, fun _ => 1,
    fun _ => 1, false⟩] [], .log [.comp 0 false [lv 1, lv 1]]]

example : PlainL sem exProg ∧ (buildList exProg 0 0).2 = 4 ∧
    (match dirL sem 5 exProg [] with
      | .normal m => decide (m = [[9, 0, 6, 507, 1], [2]]) | _ => false) = true := by
  refine ⟨?_, by decide +kernel, by decide +kernel⟩
  simp only [exProg, PlainL, Plain, and_true]
  exact ⟨by simp, by simp, by simp⟩

/-- The index of an output signal with an index of its own: `out[i * j] <== x + y` in a parallel
template. The text of the destination is evaluated again after the code for the source, which uses the
same temporary: another output than the one written is marked as set. -/
theorem C54_notify_violated :
    ∃ s : Store Nat Bool Nat, s.srcTy = none ∧ s.notify = true ∧
      (UsesAs (fun _ => True) s.dest ∧ ∀ m c d v z (k : Nat) l,
        sem.read (sem.write m s.kind c d v z) k l = sem.read m k l) ∧
      ∀ σ, (runStore sem (buildStore s 0).2 [] (buildStore s 0).1 σ).map Prod.fst
          = some [[9, 0, 6, 9, 1], [9, 1]] ∧
        dirStore sem [] s = [[9, 0, 6, 9, 1], [6, 1]] := by
  refine ⟨⟨none, none, [.toAddr (.comp 0 true [lv 2, lv 3])], .comp 0 false [lv 4, lv 5], 9, fun _ => 1,
    fun _ => 1, true⟩, rfl, rfl, ⟨⟨trivial, trivial⟩, fun _ _ _ _ _ _ _ => rfl⟩, fun σ => ⟨rfl, rfl⟩⟩

/-- The component index of a source, `dst <== c[i * j][k * l].out`, where the size of `out` depends on
the component: it is computed with the numbers the tree had before the numbering, all zero, so its two
parts share a place. The number of elements copied is that of another component: here of component
`2 * 3 * 10 + 2 * 3` instead of `2 * 3 * 10 + 4 * 1`. -/
theorem C54_source_size_violated :
    ∃ (s : Store Nat Bool Nat) (a : Ax), s.notify = false ∧ s.srcTy = some a ∧ s.src = .load 8 [a] ∧
      ∀ σ, (runStore sem (buildStore s 0).2 [] (buildStore s 0).1 σ).map Prod.fst
          = some [[9, 0, 72, 66]] ∧
        dirStore sem [] s = [[9, 0, 72, 64]] := by
  refine ⟨⟨none, some (.arith false (.arith true (.toAddr (.comp 0 true [lv 2, lv 3])) (.num 10))
      (.toAddr (.comp 0 true [lv 4, lv 1]))), [],
    .load 8 [.arith false (.arith true (.toAddr (.comp 0 true [lv 2, lv 3])) (.num 10))
      (.toAddr (.comp 0 true [lv 4, lv 1]))], 9, fun _ => 1000, fun c => c, false⟩, _, rfl, rfl, rfl,
    fun σ => ⟨rfl, rfl⟩⟩

end Verif.Props.Slots
