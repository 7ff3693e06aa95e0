import Verif.Exec

/-!
Model of the check that all paths of a function return
(`type_analysis/src/analyzers/functions_all_paths_with_return_statement.rs`).

Statements are those of `Verif.Exec`; the kinds left out there (`log`, `assert`, multiple
substitutions, initialisation blocks, calls) are all answered `false` by the check, as are the
assignments.
-/

namespace Verif.Returns

open Verif.Exec

/-- functions_all_paths_with_return_statement.rs:18-33, `analyse_statement`, and 35-41,
`analyse_block` (the disjunction over the statements of a block). -/
def analyse : Stmt → Bool
  | .ret _ => true
  | .while _ _ => false
  | .ifte _ _ none => false
  | .ifte _ t (some e) => analyse e && analyse t
  | .block b => analyse b
  | .seq a b => analyse a || analyse b
  | _ => false

end Verif.Returns
