import Verif.DriverLemmas

/-!
# C97: the options select what a run does and writes

The model is `Verif/Driver.lean`.  `fs` is the list of files before a run; a file system is changed by writing files, by making a folder
anew (everything below it is removed) and by removing files.
-/

set_option linter.unusedVariables false

namespace Verif.Props.Driver

open Verif.Driver

theorem config_spec {o : Options} {c : Config} (h : config o = some c) :
    ∃ st sa p, style o = some st ∧ sanity o = some sa ∧ prime o = some p ∧ o.isFile = true ∧ o.isDir = true ∧
      c = ⟨baseName o, o.output, match st with | .o2 r => r | _ => 0, st == .o0, st == .o1, sa, p⟩ := by
  unfold config at h
  split at h
  · next hf =>
    split at h
    · next hd =>
      split at h
      · exact absurd h (by simp)
      · next st hst =>
        split at h
        · exact absurd h (by simp)
        · next sa hsa =>
          split at h
          · exact absurd h (by simp)
          · next p hp => exact ⟨st, sa, p, hst, hsa, hp, hf, hd, (Option.some.inj h).symm⟩
    · exact absurd h (by simp)
  · exact absurd h (by simp)

/-- **C97 (level).**  Whatever the options, the later stages are told exactly one of: no simplification, the reduced one, or full
simplification with at least one round.  `--O0` wins over `--O1`, this over `--O2round`, this over `--O2`; `--O1` is the default; zero
rounds mean the reduced simplification, and a number of rounds is passed on as written. -/
theorem C97_level {o : Options} {c : Config} (h : config o = some c) :
    ((c.fast = true ∧ c.reduced = false ∧ c.rounds = 0) ∨ (c.fast = false ∧ c.reduced = true ∧ c.rounds = 0) ∨
      (c.fast = false ∧ c.reduced = false ∧ 0 < c.rounds ∧ c.rounds < 2 ^ 64)) ∧
    (c.fast = true ↔ o.o0 = true) ∧
    (o.o0 = false → o.o1 = true → c.reduced = true) ∧
    (o.o0 = false → o.o1 = false → ∀ n : Nat, o.o2round = some (Nat.repr n) →
      n < 2 ^ 64 ∧ (n = 0 → c.reduced = true) ∧ c.rounds = n) ∧
    (o.o0 = false → o.o1 = false → o.o2round = none → o.o2 = true → c.rounds = 2 ^ 64 - 1) ∧
    (o.o0 = false → o.o1 = false → o.o2round = none → o.o2 = false → c.reduced = true) := by
  obtain ⟨st, sa, p, hst, -, -, -, -, rfl⟩ := config_spec h
  unfold style at hst
  have hpu : ∀ n : Nat, parseUsize (Nat.repr n) = if n < 2 ^ 64 then some n else none := by
    intro n
    unfold parseUsize
    have e : (Nat.repr n).toList = Nat.toDigits 10 n := by
      unfold Nat.repr
      exact String.toList_ofList
    rw [e]
    have hd : dropPlus (Nat.toDigits 10 n) = Nat.toDigits 10 n := by
      unfold dropPlus
      split
      · next t ht =>
        exfalso
        have hm : '+' ∈ Nat.toDigits 10 n := by rw [ht]; exact List.mem_cons_self
        have hk := JsonOut.natOf_key n
        unfold JsonOut.natOf at hk
        split at hk
        · next hq => exact absurd (hq.2 '+' hm).1 (by decide)
        · exact absurd hk (by simp)
      · rfl
    rw [hd, JsonOut.natOf_key n]
  revert hst
  cases o.o0 <;> cases o.o1 <;> cases hr : o.o2round <;> cases o.o2 <;> intro hst <;> dsimp only at hst <;>
    first
      | (obtain rfl := Option.some.inj hst
         refine ⟨?_, ?_, ?_, ?_, ?_, ?_⟩ <;> simp (decide := true))
      | skip
  all_goals
    next r =>
    cases hp : parseUsize r with
    | none => rw [hp] at hst; exact absurd hst (by simp)
    | some n =>
      rw [hp] at hst
      have hlt : n < 2 ^ 64 := by
        unfold parseUsize at hp
        split at hp
        · split at hp
          · next hl => exact (Option.some.inj hp) ▸ hl
          · exact absurd hp (by simp)
        · exact absurd hp (by simp)
      have hrep : ∀ k : Nat, some r = some (Nat.repr k) → k = n := by
        intro k hk
        rw [Option.some.inj hk, hpu k] at hp
        split at hp
        · exact Option.some.inj hp
        · exact absurd hp (by simp)
      by_cases hn : n = 0
      · subst hn
        simp only [if_true] at hst
        obtain rfl := Option.some.inj hst
        refine ⟨Or.inr (Or.inl ⟨rfl, rfl, rfl⟩), by simp (decide := true), by simp, ?_, by simp, by simp⟩
        intro _ _ k hk
        have := hrep k hk
        subst this
        exact ⟨hlt, fun _ => rfl, rfl⟩
      · simp only [hn, if_false] at hst
        obtain rfl := Option.some.inj hst
        refine ⟨Or.inr (Or.inr ⟨rfl, rfl, Nat.pos_of_ne_zero hn, hlt⟩), by simp (decide := true), by simp, ?_, by simp, by simp⟩
        intro _ _ k hk
        have := hrep k hk
        subst this
        exact ⟨hlt, fun h0 => absurd h0 hn, rfl⟩

/-- **C97 (prime).**  An accepted name of a prime is the given one, or `bn128`, and the compiler has a number for it. -/
theorem C97_prime {o : Options} {c : Config} (h : config o = some c) :
    (constant c.prime).isSome = true ∧ (o.prime = none → c.prime = "bn128") ∧ ∀ v, o.prime = some v → c.prime = v := by
  obtain ⟨st, sa, p, -, -, hp, -, -, rfl⟩ := config_spec h
  dsimp only
  unfold prime at hp
  split at hp
  · next v hv =>
    split at hp
    · next hor =>
      obtain rfl := Option.some.inj hp
      refine ⟨?_, fun h' => absurd (hv.symm.trans h') (by simp), fun w hw => Option.some.inj (hv.symm.trans hw)⟩
      rcases hor with rfl | rfl | rfl | rfl | rfl | rfl | rfl | rfl <;> rfl
    · exact absurd hp (by simp)
  · next hv =>
    obtain rfl := Option.some.inj hp
    exact ⟨rfl, fun _ => rfl, fun w hw => absurd (hv.symm.trans hw) (by simp)⟩

/-- The text of a number of rounds that is understood: digits, perhaps after a `+`, below `2 ^ 64`. -/
def Rounds (r : String) : Prop :=
  ∃ t : List Char, (r.toList = t ∨ r.toList = '+' :: t) ∧ t ≠ [] ∧ (∀ c ∈ t, '0' ≤ c ∧ c ≤ '9') ∧
    t.foldl (fun n c => 10 * n + (c.toNat - 48)) 0 < 2 ^ 64

theorem rounds_spec (r : String) : (parseUsize r).isSome = true ↔ Rounds r := by
  unfold parseUsize JsonOut.natOf Rounds
  constructor
  · intro h
    split at h
    · next n hn =>
      split at hn
      · next hq =>
        obtain rfl := Option.some.inj hn
        split at h
        · next hlt =>
          refine ⟨dropPlus r.toList, ?_, hq.1, hq.2, hlt⟩
          unfold dropPlus
          split
          · next t ht => exact Or.inr ht
          · exact Or.inl rfl
        · exact absurd h (by simp)
      · exact absurd hn (by simp)
    · exact absurd h (by simp)
  · rintro ⟨t, ht, hne, hd, hlt⟩
    have e : dropPlus r.toList = t := by
      rcases ht with ht | ht
      · rw [ht]
        unfold dropPlus
        split
        · exact absurd (hd '+' List.mem_cons_self).1 (by decide)
        · rfl
      · rw [ht]
        rfl
    rw [e, if_pos ⟨hne, hd⟩]
    dsimp only
    rw [if_pos hlt]
    rfl

/-- **C97 (accept).**  The command line is accepted exactly when the program is a file, the output folder a folder, and the values of the
options are known ones; a number of rounds counts only where it is used. -/
theorem C97_accept (o : Options) : (config o).isSome = true ↔
    o.isFile = true ∧ o.isDir = true ∧
    (o.o0 = false → o.o1 = false → ∀ r, o.o2round = some r → Rounds r) ∧
    (∀ v, o.sanity = some v → v ∈ ["0", "1", "2", "3"]) ∧
    (∀ v, o.prime = some v →
      v ∈ ["bn128", "bls12381", "goldilocks", "grumpkin", "pallas", "vesta", "secq256r1", "bls12377"]) := by
  have h1 : (style o).isSome = true ↔ (o.o0 = false → o.o1 = false → ∀ r, o.o2round = some r → Rounds r) := by
    unfold style
    cases o.o0 <;> cases o.o1 <;> cases hr : o.o2round <;> cases o.o2 <;> simp <;>
      (rw [← rounds_spec]; split <;> simp_all <;> split <;> simp)
  have h2 : (sanity o).isSome = true ↔ (∀ v, o.sanity = some v → v ∈ ["0", "1", "2", "3"]) := by
    unfold sanity
    cases o.sanity with
    | none => simp
    | some v =>
      dsimp only
      by_cases a : v = "0" <;> by_cases b : v = "1" <;> by_cases c : v = "2" <;> by_cases d : v = "3" <;> simp [a, b, c, d]
  have h3 : (prime o).isSome = true ↔ (∀ v, o.prime = some v →
      v ∈ ["bn128", "bls12381", "goldilocks", "grumpkin", "pallas", "vesta", "secq256r1", "bls12377"]) := by
    unfold prime
    cases o.prime with
    | none => simp
    | some v =>
      dsimp only
      constructor
      · intro h w hw
        obtain rfl := Option.some.inj hw
        split at h
        · next hv => simpa using hv
        · exact absurd h (by simp)
      · intro h
        rw [if_pos (by simpa using h v rfl)]
        rfl
  rw [← h1, ← h2, ← h3]
  unfold config
  cases o.isFile <;> cases o.isDir <;> cases style o <;> cases sanity o <;> cases prime o <;> simp

/-- **C97 (inspection).**  The level of the checks of the generated code is the given one, or 2. -/
theorem C97_sanity {o : Options} {c : Config} (h : config o = some c) :
    (o.sanity = none → c.sanity = 2) ∧ ∀ v, o.sanity = some v → Nat.repr c.sanity = v := by
  obtain ⟨st, sa, p, -, hs, -, -, -, rfl⟩ := config_spec h
  dsimp only
  unfold sanity at hs
  cases hv : o.sanity with
  | none =>
    rw [hv] at hs
    exact ⟨fun _ => (Option.some.inj hs).symm, fun v h' => absurd h' (by simp)⟩
  | some v =>
    rw [hv] at hs
    refine ⟨fun h' => absurd h' (by simp), fun w hw => ?_⟩
    obtain rfl := Option.some.inj hw
    dsimp only at hs
    split at hs
    · next e => rw [e, ← Option.some.inj hs]; decide
    · split at hs
      · next e => rw [e, ← Option.some.inj hs]; decide
      · split at hs
        · next e => rw [e, ← Option.some.inj hs]; decide
        · split at hs
          · next e => rw [e, ← Option.some.inj hs]; decide
          · exact absurd hs (by simp)

/-- **C97 (failure).**  If the options are not accepted or the parser, the checks or the execution fail, the run fails and changes no
file. -/
theorem C97_failure (o : Options) (s : Stages) (ok : Act → Bool)
    (h : config o = none ∨ s.parse = false ∨ s.types = false ∨ s.execution = false) : run ok (start o s) = ([], false) := by
  unfold start
  cases hc : config o with
  | none => rfl
  | some c =>
    rw [hc] at h
    rcases h with h | h | h | h
    · exact absurd h (by simp)
    · simp [run, h]
    · cases hp : s.parse <;> simp [run, h]
    · cases hp : s.parse <;> cases ht : s.types <;> simp [run, h, execSteps]

theorem ok_spec {o : Options} {s : Stages} {ok : Act → Bool} (h : (run ok (start o s)).2 = true) :
    ∃ c, config o = some c ∧ c.name = baseName o ∧ c.out = o.output ∧ (run ok (start o s)).1 = allActs o c := by
  have ha := run_acts ok _ h
  have ht := (run_true ok _).1 h
  unfold start at ha ht ⊢
  cases hc : config o with
  | none =>
    rw [hc] at ht
    exact absurd (ht.1 false (by simp)) (by simp)
  | some c =>
    rw [hc] at ha ht
    obtain ⟨st, sa, p, -, -, -, -, -, rfl⟩ := config_spec hc
    refine ⟨_, rfl, rfl, rfl, ?_⟩
    dsimp only at ha ht ⊢
    rw [ha, List.append_assoc, actsOf_append]
    have hs : o.wasm = true → s.wasm = true := by
      intro hw
      cases hsw : s.wasm
      · refine ht.1 false (List.mem_append_right _ ?_)
        unfold compileSteps
        cases hwat : o.wat <;> simp [hw, hsw]
      · rfl
    exact acts_compile o _ s rfl hs

/-- **C97 (effect).**  After a run that ends well the files are: those that the options ask for, and the files from before that were not
below a folder made anew.  In particular a file of the text of the WebAssembly module remains only where `--wat` asks for it. -/
theorem C97_effect {o : Options} {s : Stages} {ok : Act → Bool} (h : (run ok (start o s)).2 = true) :
    ∃ c, config o = some c ∧ ∀ (fs : List Path) (p : Path), p ∈ ((run ok (start o s)).1).foldl apply fs ↔
      p ∈ wantedTop o (baseName o) ∨ p ∈ wantedC o (baseName o) c.prime ∨ p ∈ wantedJs o (baseName o) ∨
        (p ∈ fs ∧ ¬ Cleared o (baseName o) p) := by
  obtain ⟨c, hc, hn, ho, ha⟩ := ok_spec h
  refine ⟨c, hc, fun fs p => ?_⟩
  rw [ha, mem_allActs, hn]

/-- **C97 (success).**  If the file system does what it is told, the run ends well exactly when the options are accepted and all stages
that the options ask for succeed. -/
theorem C97_success (o : Options) (s : Stages) : (run (fun _ => true) (start o s)).2 = true ↔
    (config o).isSome = true ∧ s.parse = true ∧ s.types = true ∧ s.execution = true ∧
      ((o.c || o.wat || o.wasm) = true → s.circuit = true) ∧ (o.wasm = true → s.wasm = true) := by
  rw [run_true]
  unfold start
  cases hc : config o with
  | none => simp
  | some c =>
    simp only [Option.isSome_some, true_and, implies_true, and_true]
    have hx : ∀ b, Step.stage b ∈ execSteps o c s ↔ b = s.execution := by
      intro b
      unfold execSteps
      cases o.jsonSub <;> cases o.r1cs <;> cases o.sym <;> cases o.json <;> simp
    have hcs : ∀ b, Step.stage b ∉ cSteps o c := by
      intro b
      unfold cSteps
      by_cases hp : c.prime = "goldilocks" <;> cases o.noAsm <;> simp [hp]
    have hws : ∀ b, Step.stage b ∉ watSteps c := by
      intro b
      unfold watSteps
      simp
    have hk : ∀ b, Step.stage b ∈ compileSteps o c s ↔
        ((o.c || o.wat || o.wasm) = true ∧ b = s.circuit) ∨ (o.wasm = true ∧ (s.wasm = false ∨ o.wat = true) ∧ b = s.wasm) := by
      intro b
      unfold compileSteps
      cases hoc : o.c <;> cases o.wat <;> cases o.wasm <;> cases s.wasm <;> simp [hcs, hws]
    constructor
    · intro h
      have h1 := h s.parse (by simp)
      have h2 := h s.types (by simp)
      have h3 := h s.execution (List.mem_append_left _ (List.mem_append_right _ ((hx _).2 rfl)))
      refine ⟨h1, h2, h3, fun hf => h _ (List.mem_append_right _ ((hk _).2 (Or.inl ⟨hf, rfl⟩))), fun hw => ?_⟩
      cases hsw : s.wasm
      · exact h false (List.mem_append_right _ ((hk _).2 (Or.inr ⟨hw, Or.inl hsw, hsw.symm⟩)))
      · rfl
    · rintro ⟨h1, h2, h3, h4, h5⟩ b hb
      rcases List.mem_append.1 hb with hb | hb
      · rcases List.mem_append.1 hb with hb | hb
        · simp only [List.mem_cons, Step.stage.injEq, List.not_mem_nil, or_false] at hb
          rcases hb with rfl | rfl
          · exact h1
          · exact h2
        · rw [(hx b).1 hb]
          exact h3
      · rcases (hk b).1 hb with ⟨hf, rfl⟩ | ⟨hw, -, rfl⟩
        · exact h4 hf
        · exact h5 hw

/-- **C97 (once, partial).**  No run writes a file twice, so that no output destroys another one: also for programs named like a file of
the C++ folder, but for `json2bin64` with the prime goldilocks. -/
theorem C97_once_partial {o : Options} {s : Stages} {ok : Act → Bool} (h : (run ok (start o s)).2 = true)
    (hj : o.c = true → baseName o = "json2bin64" → o.prime ≠ some "goldilocks") : (written (run ok (start o s)).1).Nodup := by
  obtain ⟨c, hc, hn, ho, ha⟩ := ok_spec h
  rw [ha]
  refine written_nodup o c hn (fun h1 h2 h3 => ?_)
  have hp := C97_prime hc
  refine hj h1 (hn ▸ h2) ?_
  cases hv : o.prime with
  | none => exact absurd ((hp.2.1 hv).symm.trans h3) (by decide)
  | some v => rw [← hp.2.2 v hv, h3]

def opts : Options :=
  ⟨["work"], "mul", some "circom", true, true, ["out"], false, false, false, none, none, none, true, true, true, true, true, false, true, false⟩

def fine : Stages := ⟨true, true, true, true, true⟩

/-- The program `json2bin64.circom` with `--c --prime goldilocks`: its C++ file is written over by the converter of inputs (and both
write into one file). -/
theorem C97_once_violated : ∃ o s, (run (fun _ => true) (start o s)).2 = true ∧ ¬ (written (run (fun _ => true) (start o s)).1).Nodup :=
  ⟨{ opts with stem := "json2bin64", prime := some "goldilocks" }, fine, by decide +kernel, by decide +kernel⟩

/-- The path of the program. -/
def source (o : Options) : Path := o.dir ++ [match o.ext with | some e => o.stem ++ "." ++ e | none => o.stem]

/-- **C97 (source, partial).**  A program with the extension `circom` that is not in a folder made anew is still there after the run,
and no output is written over it. -/
theorem C97_source_partial {o : Options} {s : Stages} {ok : Act → Bool} (h : (run ok (start o s)).2 = true) (hx : o.ext = some "circom")
    (hd : ¬ Cleared o (baseName o) (source o)) :
    source o ∉ written (run ok (start o s)).1 ∧ ∀ fs, source o ∈ fs → source o ∈ ((run ok (start o s)).1).foldl apply fs := by
  constructor
  · obtain ⟨c, hc, hn, ho, ha⟩ := ok_spec h
    rw [ha, written_allActs, hn]
    intro hm
    rcases List.mem_append.1 hm with hm | hm
    · rcases List.mem_append.1 hm with hm | hm
      · unfold wantedTop source at hm
        rw [hx] at hm
        simp only [List.mem_append, List.mem_ite_nil_right, List.mem_singleton, String.append_assoc] at hm
        have key : ∀ (m b : String) (i : Nat), (i < ".circom".toList.length ∧ i < b.toList.length) →
            (".circom".toList.reverse[i]? ≠ b.toList.reverse[i]?) → o.dir ++ [o.stem ++ ("." ++ "circom")] ≠ o.output ++ [m ++ b] := by
          intro m b i hi hb e
          have := (List.append_inj' e rfl).2
          rw [List.cons.injEq] at this
          exact suffix_ne (n := o.stem) (m := m) (a := ".circom") (b := b) i hi hb this.1
        rcases hm with ((hm | hm) | hm) | hm
        · exact key _ "_substitutions.json" 0 (by decide) (by decide) hm.2
        · exact key _ ".r1cs" 0 (by decide) (by decide) hm.2
        · exact key _ ".sym" 1 (by decide) (by decide) hm.2
        · exact key _ "_constraints.json" 0 (by decide) (by decide) hm.2
      · have hcf : o.c = true := by
          by_contra hcf
          unfold wantedC at hm
          rw [if_neg hcf] at hm
          exact absurd hm (by simp)
        obtain ⟨x, e⟩ := c_in hm
        exact hd (Or.inl ⟨hcf, e ▸ (prefix_two _ _ _ _).2 rfl⟩)
    · have hjf : (o.wat || o.wasm) = true := by
        by_contra hjf
        rw [if_neg hjf] at hm
        exact absurd hm (by simp)
      obtain ⟨x, e⟩ := js_in hm
      exact hd (Or.inr ⟨hjf, e ▸ (prefix_two _ _ _ _).2 rfl⟩)
  · intro fs hm
    obtain ⟨c, hc, he⟩ := C97_effect h
    rw [he]
    exact Or.inr (Or.inr (Or.inr ⟨hm, hd⟩))

/-- The program `mul_js/mul.circom`, compiled with `--wasm` in the folder above: the folder with the program is removed. -/
theorem C97_source_violated : ∃ o s, o.ext = some "circom" ∧ (run (fun _ => true) (start o s)).2 = true ∧
    source o ∉ ((run (fun _ => true) (start o s)).1).foldl apply [source o] :=
  ⟨{ opts with dir := ["out", "mul_js"] }, fine, rfl, by decide +kernel, by decide +kernel⟩

/-! ### A concrete run -/

example : (run (fun _ => true) (start opts fine)).2 = true := by decide +kernel

example : (match config opts with | some c => c.reduced && c.prime == "bn128" && c.sanity == 2 | none => false) = true := by decide +kernel

example : (match config { opts with o2round := some "17" } with | some c => c.rounds == 17 | none => false) = true := by decide +kernel

example : (config { opts with o2round := some "-1" }).isNone = true := by decide +kernel

example : ((run (fun _ => true) (start opts fine)).1).foldl apply [["out", "mul_js", "old.js"], source opts] =
    [["out", "mul_js", "mul.wasm"], ["out", "mul_js", "witness_calculator.js"], ["out", "mul_js", "generate_witness.js"],
     ["out", "mul_cpp", "Makefile"], ["out", "mul_cpp", "fr.asm"], ["out", "mul_cpp", "calcwit.cpp"], ["out", "mul_cpp", "fr.cpp"],
     ["out", "mul_cpp", "calcwit.hpp"], ["out", "mul_cpp", "fr.hpp"], ["out", "mul_cpp", "circom.hpp"], ["out", "mul_cpp", "main.cpp"],
     ["out", "mul_cpp", "mul.cpp"], ["out", "mul_cpp", "mul.dat"], ["out", "mul_constraints.json"], ["out", "mul.sym"], ["out", "mul.r1cs"],
     ["out", "mul_substitutions.json"], ["work", "mul.circom"]] := by decide +kernel

example : ¬ Cleared opts (baseName opts) (source opts) := by
  unfold Cleared
  decide

example : run (fun _ => true) (start opts { fine with types := false }) = ([], false) := C97_failure _ _ _ (Or.inr (Or.inr (Or.inl rfl)))

end Verif.Props.Driver
