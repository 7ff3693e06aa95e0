import Verif.Driver
import Verif.JsonOutLemmas

/-!
# Lemmas on the command line and the files of a run
-/

namespace Verif.Driver

/-! ### Steps -/

/-- The actions among steps. -/
def actsOf : List Step → List Act
  | [] => []
  | .stage _ :: l => actsOf l
  | .act a :: l => a :: actsOf l

theorem actsOf_append : ∀ a b : List Step, actsOf (a ++ b) = actsOf a ++ actsOf b
  | [], b => rfl
  | .stage _ :: a, b => by
    show actsOf (a ++ b) = actsOf a ++ actsOf b
    exact actsOf_append a b
  | .act x :: a, b => by
    show x :: actsOf (a ++ b) = x :: actsOf a ++ actsOf b
    rw [actsOf_append a b]
    rfl

theorem run_true (ok : Act → Bool) : ∀ l : List Step,
    (run ok l).2 = true ↔ (∀ b, Step.stage b ∈ l → b = true) ∧ ∀ a ∈ actsOf l, ok a = true
  | [] => by simp [run, actsOf]
  | .stage b :: l => by
    have ih := run_true ok l
    cases b
    · simp [run]
    · simp only [run, if_true, ih, actsOf, List.mem_cons, Step.stage.injEq]
      constructor
      · rintro ⟨h1, h2⟩
        exact ⟨fun b hb => hb.elim (fun h => h) (h1 b), h2⟩
      · rintro ⟨h1, h2⟩
        exact ⟨fun b hb => h1 b (Or.inr hb), h2⟩
  | .act a :: l => by
    have ih := run_true ok l
    unfold run
    by_cases h : ok a = true
    · rw [if_pos h]
      simp only [ih, actsOf, List.mem_cons, reduceCtorEq, false_or, forall_eq_or_imp, h, true_and]
    · rw [if_neg h]
      simp only [actsOf, List.mem_cons, forall_eq_or_imp, h]
      simp

theorem run_acts (ok : Act → Bool) : ∀ l : List Step, (run ok l).2 = true → (run ok l).1 = actsOf l
  | [], _ => rfl
  | .stage b :: l, h => by
    cases b
    · simp [run] at h
    · simp only [run, if_true] at h ⊢
      exact run_acts ok l h
  | .act a :: l, h => by
    unfold run at h ⊢
    by_cases ha : ok a = true
    · rw [if_pos ha] at h ⊢
      show a :: _ = a :: _
      rw [run_acts ok l h]
    · rw [if_neg ha] at h
      exact absurd h (by simp)

/-! ### Effects -/

theorem mem_write (fs : List Path) (q p : Path) : p ∈ apply fs (.write q) ↔ p = q ∨ p ∈ fs := by
  unfold apply
  rw [List.mem_cons, List.mem_filter, decide_eq_true_iff]
  constructor
  · rintro (h | h)
    · exact Or.inl h
    · exact Or.inr h.1
  · rintro (h | h)
    · exact Or.inl h
    · by_cases e : p = q
      · exact Or.inl e
      · exact Or.inr ⟨h, e⟩

theorem mem_anew (fs : List Path) (d p : Path) : p ∈ apply fs (.anew d) ↔ p ∈ fs ∧ ¬ d <+: p := by
  unfold apply
  rw [List.mem_filter, Bool.not_eq_true', ← Bool.not_eq_true, List.isPrefixOf_iff_prefix]

theorem mem_remove (fs : List Path) (q p : Path) : p ∈ apply fs (.remove q) ↔ p ∈ fs ∧ p ≠ q := by
  unfold apply
  rw [List.mem_filter, decide_eq_true_iff]

theorem mem_writes (p : Path) : ∀ (ws : List Path) (fs : List Path), p ∈ (ws.map Act.write).foldl apply fs ↔ p ∈ ws ∨ p ∈ fs
  | [], fs => by simp
  | q :: ws, fs => by
    rw [List.map_cons, List.foldl_cons, mem_writes p ws, mem_write, List.mem_cons]
    constructor
    · rintro (h | h | h)
      · exact Or.inl (Or.inr h)
      · exact Or.inl (Or.inl h)
      · exact Or.inr h
    · rintro ((h | h) | h)
      · exact Or.inr (Or.inl h)
      · exact Or.inl h
      · exact Or.inr (Or.inr h)

/-! ### Names -/

theorem append_inj {n a b : String} (h : n ++ a = n ++ b) : a = b := by
  have := congrArg String.toList h
  rw [String.toList_append, String.toList_append] at this
  exact String.toList_inj.1 (List.append_cancel_left this)

/-- Two names that end differently. -/
theorem suffix_ne {n m a b : String} (i : Nat) (hi : i < a.toList.length ∧ i < b.toList.length)
    (h : a.toList.reverse[i]? ≠ b.toList.reverse[i]?) : n ++ a ≠ m ++ b := by
  intro e
  have := congrArg (fun s : String => s.toList.reverse[i]?) e
  simp only [String.toList_append, List.reverse_append] at this
  rw [List.getElem?_append_left (by rw [List.length_reverse]; exact hi.1),
    List.getElem?_append_left (by rw [List.length_reverse]; exact hi.2)] at this
  exact h this

/-! ### What is asked for -/

/-- The files that `--simplification_substitution`, `--r1cs`, `--sym` and `--json` ask for, in the output folder. -/
def wantedTop (o : Options) (n : String) : List Path :=
  (if o.jsonSub then [o.output ++ [n ++ "_substitutions.json"]] else []) ++ (if o.r1cs then [o.output ++ [n ++ ".r1cs"]] else []) ++
  (if o.sym then [o.output ++ [n ++ ".sym"]] else []) ++ (if o.json then [o.output ++ [n ++ "_constraints.json"]] else [])

/-- The files that `--c` asks for. -/
def wantedC (o : Options) (n prime : String) : List Path :=
  let f (x : String) : Path := o.output ++ [n ++ "_cpp", x]
  if o.c then
    [f (n ++ ".dat"), f (n ++ ".cpp"), f "main.cpp", f "circom.hpp", f "fr.hpp", f "calcwit.hpp"] ++
    (if prime ≠ "goldilocks" then [f "fr.cpp"] else []) ++ [f "calcwit.cpp"] ++
    (if prime ≠ "goldilocks" ∧ ¬ o.noAsm then [f "fr.asm"] else []) ++ [f "Makefile"] ++
    (if prime = "goldilocks" then [f "json2bin64.cpp"] else [])
  else []

/-- The files that `--wat` and `--wasm` ask for. -/
def wantedJs (o : Options) (n : String) : List Path :=
  let f (x : String) : Path := o.output ++ [n ++ "_js", x]
  (if o.wat then [f (n ++ ".wat")] else []) ++ (if o.wasm then [f (n ++ ".wasm")] else []) ++
  (if o.wat || o.wasm then [f "generate_witness.js", f "witness_calculator.js"] else [])

/-- The paths below a folder that `--c` or `--wat` and `--wasm` make anew. -/
def Cleared (o : Options) (n : String) (p : Path) : Prop :=
  (o.c = true ∧ o.output ++ [n ++ "_cpp"] <+: p) ∨ ((o.wat || o.wasm) = true ∧ o.output ++ [n ++ "_js"] <+: p)

theorem outFile_eq (out : Path) (n e : String) : outFile out n e = out ++ [n ++ ("." ++ e)] := by
  unfold outFile
  rw [String.append_assoc]

theorem folder_eq (out : Path) (n e : String) : folder out n e = out ++ [n ++ ("_" ++ e)] := by
  unfold folder
  rw [String.append_assoc]

theorem sub_eq (n : String) : n ++ "_substitutions" ++ ("." ++ "json") = n ++ "_substitutions.json" := by
  rw [String.append_assoc]
  rfl

theorem con_eq (n : String) : n ++ "_constraints" ++ ("." ++ "json") = n ++ "_constraints.json" := by
  rw [String.append_assoc]
  rfl

theorem acts_exec (o : Options) (c : Config) (s : Stages) (hc : c.out = o.output) :
    actsOf (execSteps o c s) = (wantedTop o c.name).map Act.write := by
  unfold execSteps wantedTop
  simp only [outFile_eq, sub_eq, con_eq, hc, show ("." ++ "r1cs" : String) = ".r1cs" from rfl, show ("." ++ "sym" : String) = ".sym" from rfl]
  cases o.jsonSub <;> cases o.r1cs <;> cases o.sym <;> cases o.json <;> rfl

theorem acts_c (o : Options) (c : Config) (hc : c.out = o.output) (h : o.c = true) :
    actsOf (cSteps o c) = Act.anew (o.output ++ [c.name ++ "_cpp"]) :: (wantedC o c.name c.prime).map Act.write := by
  unfold cSteps wantedC
  rw [if_pos h]
  simp only [folder_eq, outFile_eq, hc, List.append_assoc, List.singleton_append, show ("_" ++ "cpp" : String) = "_cpp" from rfl,
    show ("." ++ "dat" : String) = ".dat" from rfl, show ("." ++ "cpp" : String) = ".cpp" from rfl]
  by_cases hp : c.prime = "goldilocks"
  · simp only [hp, ne_eq, not_true_eq_false, if_false, if_true, false_and]
    rfl
  · cases o.noAsm
    · simp only [hp, ne_eq, not_false_eq_true, if_false, if_true, true_and, Bool.false_eq_true]
      rfl
    · simp only [hp, ne_eq, not_false_eq_true, if_false, if_true, not_true_eq_false, and_false]
      rfl

/-- The actions of a run without failures. -/
def allActs (o : Options) (c : Config) : List Act :=
  (wantedTop o c.name).map Act.write ++
  (if o.c then Act.anew (o.output ++ [c.name ++ "_cpp"]) :: (wantedC o c.name c.prime).map Act.write else []) ++
  (match o.wat, o.wasm with
    | true, true => Act.anew (o.output ++ [c.name ++ "_js"]) :: [o.output ++ [c.name ++ "_js", c.name ++ ".wat"],
        o.output ++ [c.name ++ "_js", "generate_witness.js"], o.output ++ [c.name ++ "_js", "witness_calculator.js"],
        o.output ++ [c.name ++ "_js", c.name ++ ".wasm"]].map Act.write
    | false, true => (Act.anew (o.output ++ [c.name ++ "_js"]) :: [o.output ++ [c.name ++ "_js", c.name ++ ".wat"],
        o.output ++ [c.name ++ "_js", "generate_witness.js"], o.output ++ [c.name ++ "_js", "witness_calculator.js"],
        o.output ++ [c.name ++ "_js", c.name ++ ".wasm"]].map Act.write) ++ [Act.remove (o.output ++ [c.name ++ "_js", c.name ++ ".wat"])]
    | true, false => Act.anew (o.output ++ [c.name ++ "_js"]) :: [o.output ++ [c.name ++ "_js", c.name ++ ".wat"],
        o.output ++ [c.name ++ "_js", "generate_witness.js"], o.output ++ [c.name ++ "_js", "witness_calculator.js"]].map Act.write
    | false, false => [])

theorem acts_compile (o : Options) (c : Config) (s : Stages) (hc : c.out = o.output) (hs : o.wasm = true → s.wasm = true) :
    actsOf (execSteps o c s ++ compileSteps o c s) = allActs o c := by
  rw [actsOf_append, acts_exec o c s hc]
  unfold allActs
  rw [List.append_assoc]
  congr 1
  unfold compileSteps
  dsimp only
  have hw : watSteps c = [.act (.anew (o.output ++ [c.name ++ "_js"])), .act (.write (o.output ++ [c.name ++ "_js", c.name ++ ".wat"])),
      .act (.write (o.output ++ [c.name ++ "_js", "generate_witness.js"])),
      .act (.write (o.output ++ [c.name ++ "_js", "witness_calculator.js"]))] := by
    unfold watSteps
    simp only [folder_eq, outFile_eq, hc, List.append_assoc, List.singleton_append, show ("_" ++ "js" : String) = "_js" from rfl,
      show ("." ++ "wat" : String) = ".wat" from rfl]
  have hf : ∀ e : String, outFile (folder c.out c.name "js") c.name e = o.output ++ [c.name ++ "_js", c.name ++ ("." ++ e)] := by
    intro e
    simp only [folder_eq, outFile_eq, hc, List.append_assoc, List.singleton_append, show ("_" ++ "js" : String) = "_js" from rfl]
  simp only [hf, hw, show ("." ++ "wat" : String) = ".wat" from rfl, show ("." ++ "wasm" : String) = ".wasm" from rfl]
  have hcs := acts_c o c hc
  revert hcs hs
  cases o.c <;> cases o.wat <;> cases o.wasm <;> intro hs hcs
  · rfl
  · have hs' : s.wasm = true := hs rfl
    rw [hs']
    rfl
  · rfl
  · rfl
  · simp only [Bool.true_or, if_true, actsOf_append, hcs, List.append_nil]
    rfl
  · have hs' : s.wasm = true := hs rfl
    rw [hs']
    simp only [Bool.true_or, if_true, actsOf_append, hcs]
    rfl
  · simp only [Bool.true_or, if_true, actsOf_append, hcs]
    rfl
  · simp only [Bool.true_or, if_true, actsOf_append, hcs]
    rfl

theorem prefix_two (out : Path) (x y z : String) : out ++ [x] <+: out ++ [y, z] ↔ x = y := by
  rw [List.prefix_append_right_inj]
  constructor
  · intro h
    exact (List.cons_prefix_cons.1 h).1
  · rintro rfl
    exact ⟨[z], rfl⟩

theorem prefix_one (out : Path) (x y : String) : out ++ [x] <+: out ++ [y] ↔ x = y := by
  rw [List.prefix_append_right_inj]
  constructor
  · intro h
    exact (List.cons_prefix_cons.1 h).1
  · rintro rfl
    exact ⟨[], rfl⟩

/-- Files of the output folder are in no folder made anew. -/
theorem top_free {o : Options} {n : String} {p : Path} (h : p ∈ wantedTop o n) (x : String) (hx : x = "_cpp" ∨ x = "_js") :
    ¬ o.output ++ [n ++ x] <+: p := by
  unfold wantedTop at h
  simp only [List.mem_append, List.mem_ite_nil_right, List.mem_singleton] at h
  rcases h with ((⟨-, rfl⟩ | ⟨-, rfl⟩) | ⟨-, rfl⟩) | ⟨-, rfl⟩ <;> rw [prefix_one] <;> intro e <;> have e := append_inj e <;>
    rcases hx with rfl | rfl <;> revert e <;> decide

theorem c_in {o : Options} {n pr : String} {p : Path} (h : p ∈ wantedC o n pr) : ∃ x, p = o.output ++ [n ++ "_cpp", x] := by
  unfold wantedC at h
  dsimp only at h
  split at h
  · simp only [List.mem_append, List.mem_ite_nil_right, List.mem_singleton, List.mem_cons, List.not_mem_nil, or_false] at h
    rcases h with ((((h | h) | h) | h) | h) | h
    · rcases h with h | h | h | h | h | h <;> exact ⟨_, h⟩
    · exact ⟨_, h.2⟩
    · exact ⟨_, h⟩
    · exact ⟨_, h.2⟩
    · exact ⟨_, h⟩
    · exact ⟨_, h.2⟩
  · exact absurd h (by simp)

theorem c_free {o : Options} {n pr : String} {p : Path} (h : p ∈ wantedC o n pr) : ¬ o.output ++ [n ++ "_js"] <+: p := by
  obtain ⟨x, rfl⟩ := c_in h
  rw [prefix_two]
  intro e
  have e := append_inj e
  revert e
  decide

theorem inner_ne (out : Path) (d : String) {x y : String} (h : x ≠ y) : out ++ [d, x] ≠ out ++ [d, y] := by
  intro e
  have := List.append_cancel_left e
  rw [List.cons.injEq, List.cons.injEq] at this
  exact h this.2.1

theorem js_names (n : String) : n ++ ".wasm" ≠ n ++ ".wat" ∧ ("generate_witness.js" : String) ≠ n ++ ".wat" ∧
    ("witness_calculator.js" : String) ≠ n ++ ".wat" := by
  refine ⟨fun e => ?_, ?_, ?_⟩
  · have e := append_inj e
    revert e
    decide
  · exact suffix_ne (n := "") (m := n) (a := "generate_witness.js") (b := ".wat") 0 (by decide) (by decide)
  · exact suffix_ne (n := "") (m := n) (a := "witness_calculator.js") (b := ".wat") 0 (by decide) (by decide)

/-- The state after the steps for the output folder and the C++ program. -/
theorem mem_middle (o : Options) (c : Config) (fs : List Path) (p : Path) :
    p ∈ ((wantedTop o c.name).map Act.write ++
      (if o.c then Act.anew (o.output ++ [c.name ++ "_cpp"]) :: (wantedC o c.name c.prime).map Act.write else [])).foldl apply fs ↔
    p ∈ wantedTop o c.name ∨ p ∈ wantedC o c.name c.prime ∨ (p ∈ fs ∧ ¬ (o.c = true ∧ o.output ++ [c.name ++ "_cpp"] <+: p)) := by
  rw [List.foldl_append]
  by_cases hc : o.c = true
  · rw [if_pos hc, List.foldl_cons, mem_writes, mem_anew, mem_writes]
    constructor
    · rintro (h | ⟨h | h, h'⟩)
      · exact Or.inr (Or.inl h)
      · exact Or.inl h
      · exact Or.inr (Or.inr ⟨h, fun k => h' k.2⟩)
    · rintro (h | h | ⟨h, h'⟩)
      · exact Or.inr ⟨Or.inl h, top_free h _ (Or.inl rfl)⟩
      · exact Or.inl h
      · exact Or.inr ⟨Or.inr h, fun k => h' ⟨hc, k⟩⟩
  · rw [if_neg hc, List.foldl_nil, mem_writes]
    have : wantedC o c.name c.prime = [] := by
      unfold wantedC
      rw [if_neg hc]
    rw [this]
    constructor
    · rintro (h | h)
      · exact Or.inl h
      · exact Or.inr (Or.inr ⟨h, fun k => hc k.1⟩)
    · rintro (h | h | h)
      · exact Or.inl h
      · exact absurd h (by simp)
      · exact Or.inr h.1

theorem mem_allActs (o : Options) (c : Config) (fs : List Path) (p : Path) :
    p ∈ (allActs o c).foldl apply fs ↔
    p ∈ wantedTop o c.name ∨ p ∈ wantedC o c.name c.prime ∨ p ∈ wantedJs o c.name ∨ (p ∈ fs ∧ ¬ Cleared o c.name p) := by
  have hm := mem_middle o c fs p
  unfold allActs
  rw [List.foldl_append]
  have key : ∀ (ws : List Path), (p ∈ (Act.anew (o.output ++ [c.name ++ "_js"]) :: ws.map Act.write).foldl apply
      (((wantedTop o c.name).map Act.write ++
      (if o.c then Act.anew (o.output ++ [c.name ++ "_cpp"]) :: (wantedC o c.name c.prime).map Act.write else [])).foldl apply fs) ↔
      p ∈ wantedTop o c.name ∨ p ∈ wantedC o c.name c.prime ∨ p ∈ ws ∨ (p ∈ fs ∧ ¬ (o.c = true ∧ o.output ++ [c.name ++ "_cpp"] <+: p) ∧
        ¬ o.output ++ [c.name ++ "_js"] <+: p)) := by
    intro ws
    rw [List.foldl_cons, mem_writes, mem_anew, hm]
    constructor
    · rintro (h | ⟨h | h | h, h'⟩)
      · exact Or.inr (Or.inr (Or.inl h))
      · exact Or.inl h
      · exact Or.inr (Or.inl h)
      · exact Or.inr (Or.inr (Or.inr ⟨h.1, h.2, h'⟩))
    · rintro (h | h | h | h)
      · exact Or.inr ⟨Or.inl h, top_free h _ (Or.inr rfl)⟩
      · exact Or.inr ⟨Or.inr (Or.inl h), c_free h⟩
      · exact Or.inl h
      · exact Or.inr ⟨Or.inr (Or.inr ⟨h.1, h.2.1⟩), h.2.2⟩
  obtain ⟨n1, n2, n3⟩ := js_names c.name
  have m1 := inner_ne o.output (c.name ++ "_js") n1
  have m2 := inner_ne o.output (c.name ++ "_js") n2
  have m3 := inner_ne o.output (c.name ++ "_js") n3
  have topne : p ∈ wantedTop o c.name → p ≠ o.output ++ [c.name ++ "_js", c.name ++ ".wat"] := by
    rintro h rfl
    exact top_free h _ (Or.inr rfl) ((prefix_two _ _ _ _).2 rfl)
  have cne : p ∈ wantedC o c.name c.prime → p ≠ o.output ++ [c.name ++ "_js", c.name ++ ".wat"] := by
    rintro h rfl
    exact c_free h ((prefix_two _ _ _ _).2 rfl)
  unfold Cleared wantedJs
  dsimp only
  cases hwat : o.wat <;> cases hwasm : o.wasm <;> dsimp only
  · rw [List.foldl_nil, hm]
    simp
  · rw [List.foldl_append, List.foldl_cons, List.foldl_nil, mem_remove, key _]
    simp only [Bool.false_or, if_true, Bool.false_eq_true, if_false, List.nil_append, List.mem_append, List.mem_cons, List.not_mem_nil,
      or_false, true_and, not_or]
    constructor
    · rintro ⟨h | h | (h | h | h | h) | h, h'⟩
      · exact Or.inl h
      · exact Or.inr (Or.inl h)
      · exact absurd h h'
      · exact Or.inr (Or.inr (Or.inl (Or.inr (Or.inl h))))
      · exact Or.inr (Or.inr (Or.inl (Or.inr (Or.inr h))))
      · exact Or.inr (Or.inr (Or.inl (Or.inl h)))
      · exact Or.inr (Or.inr (Or.inr h))
    · rintro (h | h | (h | h | h) | h)
      · exact ⟨Or.inl h, topne h⟩
      · exact ⟨Or.inr (Or.inl h), cne h⟩
      · exact ⟨Or.inr (Or.inr (Or.inl (Or.inr (Or.inr (Or.inr h))))), h ▸ m1⟩
      · exact ⟨Or.inr (Or.inr (Or.inl (Or.inr (Or.inl h)))), h ▸ m2⟩
      · exact ⟨Or.inr (Or.inr (Or.inl (Or.inr (Or.inr (Or.inl h))))), h ▸ m3⟩
      · refine ⟨Or.inr (Or.inr (Or.inr h)), ?_⟩
        rintro rfl
        exact h.2.2 ((prefix_two _ _ _ _).2 rfl)
  · rw [key _]
    simp only [Bool.or_false, if_true, Bool.false_eq_true, if_false, List.append_nil, List.mem_append, List.mem_cons, List.not_mem_nil,
      or_false, true_and, not_or]
  · rw [key _]
    simp only [Bool.or_true, if_true, List.mem_append, List.mem_cons, List.not_mem_nil, or_false, true_and, not_or]
    constructor
    · rintro (h | h | (h | h | h | h) | h)
      · exact Or.inl h
      · exact Or.inr (Or.inl h)
      · exact Or.inr (Or.inr (Or.inl (Or.inl (Or.inl h))))
      · exact Or.inr (Or.inr (Or.inl (Or.inr (Or.inl h))))
      · exact Or.inr (Or.inr (Or.inl (Or.inr (Or.inr h))))
      · exact Or.inr (Or.inr (Or.inl (Or.inl (Or.inr h))))
      · exact Or.inr (Or.inr (Or.inr h))
    · rintro (h | h | ((h | h) | h | h) | h)
      · exact Or.inl h
      · exact Or.inr (Or.inl h)
      · exact Or.inr (Or.inr (Or.inl (Or.inl h)))
      · exact Or.inr (Or.inr (Or.inl (Or.inr (Or.inr (Or.inr h)))))
      · exact Or.inr (Or.inr (Or.inl (Or.inr (Or.inl h))))
      · exact Or.inr (Or.inr (Or.inl (Or.inr (Or.inr (Or.inl h)))))
      · exact Or.inr (Or.inr (Or.inr h))

/-! ### Each file once -/

/-- The files written by actions. -/
def written : List Act → List Path
  | [] => []
  | .write p :: l => p :: written l
  | .anew _ :: l => written l
  | .remove _ :: l => written l

theorem written_append : ∀ a b : List Act, written (a ++ b) = written a ++ written b
  | [], b => rfl
  | .write p :: a, b => by
    show p :: written (a ++ b) = p :: written a ++ written b
    rw [written_append a b]
    rfl
  | .anew _ :: a, b => written_append a b
  | .remove _ :: a, b => written_append a b

theorem written_map : ∀ ws : List Path, written (ws.map Act.write) = ws
  | [] => rfl
  | p :: ws => by
    show p :: written (ws.map Act.write) = p :: ws
    rw [written_map ws]

theorem written_allActs (o : Options) (c : Config) :
    written (allActs o c) = wantedTop o c.name ++ wantedC o c.name c.prime ++
      (if o.wat || o.wasm then [o.output ++ [c.name ++ "_js", c.name ++ ".wat"], o.output ++ [c.name ++ "_js", "generate_witness.js"],
        o.output ++ [c.name ++ "_js", "witness_calculator.js"]] ++
        (if o.wasm then [o.output ++ [c.name ++ "_js", c.name ++ ".wasm"]] else []) else []) := by
  unfold allActs
  rw [written_append, written_append, written_map]
  congr 1
  · congr 1
    by_cases h : o.c = true
    · rw [if_pos h]
      show written ((wantedC o c.name c.prime).map Act.write) = _
      rw [written_map]
    · rw [if_neg h]
      unfold wantedC
      rw [if_neg h]
      rfl
  · cases o.wat <;> cases o.wasm <;> rfl

theorem top_nodup (o : Options) (n : String) : (wantedTop o n).Nodup := by
  have hn : ∀ a b : String, a ≠ b → o.output ++ [n ++ a] ≠ o.output ++ [n ++ b] := by
    intro a b hab e
    have := List.append_cancel_left e
    rw [List.cons.injEq] at this
    exact hab (append_inj this.1)
  have h1 := hn "_substitutions.json" ".r1cs" (by decide)
  have h2 := hn "_substitutions.json" ".sym" (by decide)
  have h3 := hn "_substitutions.json" "_constraints.json" (by decide)
  have h4 := hn ".r1cs" ".sym" (by decide)
  have h5 := hn ".r1cs" "_constraints.json" (by decide)
  have h6 := hn ".sym" "_constraints.json" (by decide)
  unfold wantedTop
  generalize o.output ++ [n ++ "_substitutions.json"] = a at *
  generalize o.output ++ [n ++ ".r1cs"] = b at *
  generalize o.output ++ [n ++ ".sym"] = c at *
  generalize o.output ++ [n ++ "_constraints.json"] = d at *
  cases o.jsonSub <;> cases o.r1cs <;> cases o.sym <;> cases o.json <;> simp [h1, h2, h3, h4, h5, h6]

theorem baseName_free (o : Options) (hc : o.c = true) : baseName o ≠ "main" ∧ baseName o ≠ "fr" ∧ baseName o ≠ "calcwit" := by
  unfold baseName
  by_cases h : (o.stem == "main" || o.stem == "fr" || o.stem == "calcwit") = true
  · rw [if_pos (by rw [hc, h]; rfl)]
    refine ⟨?_, ?_, ?_⟩
    · exact suffix_ne (n := o.stem) (m := "") (a := "_c") (b := "main") 0 (by decide) (by decide)
    · exact suffix_ne (n := o.stem) (m := "") (a := "_c") (b := "fr") 0 (by decide) (by decide)
    · exact suffix_ne (n := o.stem) (m := "") (a := "_c") (b := "calcwit") 0 (by decide) (by decide)
  · rw [if_neg (by rw [hc, Bool.true_and]; exact h)]
    simp only [Bool.or_eq_true, beq_iff_eq, not_or] at h
    exact ⟨h.1.1, h.1.2, h.2⟩

theorem append_inj_left {n m a : String} (h : n ++ a = m ++ a) : n = m := by
  have := congrArg String.toList h
  rw [String.toList_append, String.toList_append] at this
  exact String.toList_inj.1 (List.append_cancel_right this)

theorem c_nodup (o : Options) (n pr : String) (h1 : n ≠ "main") (h2 : n ≠ "fr") (h3 : n ≠ "calcwit")
    (h4 : n = "json2bin64" → pr ≠ "goldilocks") : (wantedC o n pr).Nodup := by
  unfold wantedC
  dsimp only
  split
  · have hd : ∀ x : String, x.toList.getLast? ≠ some 't' → x.toList ≠ [] → n ++ ".dat" ≠ x := by
      intro x hx hl e
      apply hx
      rw [← e, String.toList_append, List.getLast?_append]
      rfl
    have hcpp : ∀ m : String, n ≠ m → n ++ ".cpp" ≠ m ++ ".cpp" := fun m hm e => hm (append_inj_left e)
    have inner : ∀ x y : String, x ≠ y → o.output ++ [n ++ "_cpp", x] ≠ o.output ++ [n ++ "_cpp", y] := fun x y h => inner_ne _ _ h
    have a1 : n ++ ".dat" ≠ n ++ ".cpp" := fun e => by
      have e := append_inj e
      revert e
      decide
    have a2 := hd "main.cpp" (by decide) (by decide)
    have a3 := hd "circom.hpp" (by decide) (by decide)
    have a4 := hd "fr.hpp" (by decide) (by decide)
    have a5 := hd "calcwit.hpp" (by decide) (by decide)
    have a6 := hd "fr.cpp" (by decide) (by decide)
    have a7 := hd "calcwit.cpp" (by decide) (by decide)
    have a8 := hd "fr.asm" (by decide) (by decide)
    have a9 := hd "Makefile" (by decide) (by decide)
    have a10 := hd "json2bin64.cpp" (by decide) (by decide)
    have b2 : n ++ ".cpp" ≠ "main.cpp" := hcpp "main" h1
    have b3 : n ++ ".cpp" ≠ "circom.hpp" :=
      suffix_ne (n := n) (m := "") (a := ".cpp") (b := "circom.hpp") 2 (by decide) (by decide)
    have b4 : n ++ ".cpp" ≠ "fr.hpp" := suffix_ne (n := n) (m := "") (a := ".cpp") (b := "fr.hpp") 2 (by decide) (by decide)
    have b5 : n ++ ".cpp" ≠ "calcwit.hpp" := suffix_ne (n := n) (m := "") (a := ".cpp") (b := "calcwit.hpp") 2 (by decide) (by decide)
    have b6 : n ++ ".cpp" ≠ "fr.cpp" := hcpp "fr" h2
    have b7 : n ++ ".cpp" ≠ "calcwit.cpp" := hcpp "calcwit" h3
    have b8 : n ++ ".cpp" ≠ "fr.asm" := suffix_ne (n := n) (m := "") (a := ".cpp") (b := "fr.asm") 0 (by decide) (by decide)
    have b9 : n ++ ".cpp" ≠ "Makefile" := suffix_ne (n := n) (m := "") (a := ".cpp") (b := "Makefile") 0 (by decide) (by decide)
    have names : ∀ l : List String, l.Nodup → (l.map fun x => o.output ++ [n ++ "_cpp", x]).Nodup := by
      intro l hl
      refine hl.map ?_
      intro x y hxy
      by_contra hne
      exact inner x y hne hxy
    by_cases hp : pr = "goldilocks"
    · have b10 : n ++ ".cpp" ≠ "json2bin64.cpp" := hcpp "json2bin64" (fun e => h4 e hp)
      have := names [n ++ ".dat", n ++ ".cpp", "main.cpp", "circom.hpp", "fr.hpp", "calcwit.hpp", "calcwit.cpp", "Makefile",
        "json2bin64.cpp"] (by
          simp only [List.nodup_cons, List.mem_cons, List.not_mem_nil, or_false, not_or]
          refine ⟨⟨a1, a2, a3, a4, a5, a7, a9, a10⟩, ⟨b2, b3, b4, b5, b7, b9, b10⟩, ?_⟩
          decide)
      simpa [hp] using this
    · cases o.noAsm
      · have := names [n ++ ".dat", n ++ ".cpp", "main.cpp", "circom.hpp", "fr.hpp", "calcwit.hpp", "fr.cpp", "calcwit.cpp", "fr.asm",
          "Makefile"] (by
            simp only [List.nodup_cons, List.mem_cons, List.not_mem_nil, or_false, not_or]
            refine ⟨⟨a1, a2, a3, a4, a5, a6, a7, a8, a9⟩, ⟨b2, b3, b4, b5, b6, b7, b8, b9⟩, ?_⟩
            decide)
        simpa [hp] using this
      · have := names [n ++ ".dat", n ++ ".cpp", "main.cpp", "circom.hpp", "fr.hpp", "calcwit.hpp", "fr.cpp", "calcwit.cpp", "Makefile"] (by
            simp only [List.nodup_cons, List.mem_cons, List.not_mem_nil, or_false, not_or]
            refine ⟨⟨a1, a2, a3, a4, a5, a6, a7, a9⟩, ⟨b2, b3, b4, b5, b6, b7, b9⟩, ?_⟩
            decide)
        simpa [hp] using this
  · exact List.nodup_nil

theorem js_nodup (o : Options) (n : String) : (if o.wat || o.wasm then [o.output ++ [n ++ "_js", n ++ ".wat"],
      o.output ++ [n ++ "_js", "generate_witness.js"], o.output ++ [n ++ "_js", "witness_calculator.js"]] ++
      (if o.wasm then [o.output ++ [n ++ "_js", n ++ ".wasm"]] else []) else []).Nodup := by
  obtain ⟨n1, n2, n3⟩ := js_names n
  have n4 : n ++ ".wasm" ≠ "generate_witness.js" :=
    suffix_ne (n := n) (m := "") (a := ".wasm") (b := "generate_witness.js") 0 (by decide) (by decide)
  have n5 : n ++ ".wasm" ≠ "witness_calculator.js" :=
    suffix_ne (n := n) (m := "") (a := ".wasm") (b := "witness_calculator.js") 0 (by decide) (by decide)
  have names : ∀ l : List String, l.Nodup → (l.map fun x => o.output ++ [n ++ "_js", x]).Nodup := by
    intro l hl
    refine hl.map ?_
    intro x y hxy
    by_contra hne
    exact inner_ne _ _ hne hxy
  have m := names [n ++ ".wat", "generate_witness.js", "witness_calculator.js", n ++ ".wasm"] (by
    simp only [List.nodup_cons, List.mem_cons, List.not_mem_nil, or_false, not_or]
    exact ⟨⟨n2.symm, n3.symm, n1.symm⟩, ⟨by decide, n4.symm⟩, n5.symm, by simp, List.nodup_nil⟩)
  have m' := names [n ++ ".wat", "generate_witness.js", "witness_calculator.js"] (by
    simp only [List.nodup_cons, List.mem_cons, List.not_mem_nil, or_false, not_or]
    exact ⟨⟨n2.symm, n3.symm⟩, by decide, by simp, List.nodup_nil⟩)
  cases o.wat <;> cases o.wasm
  · exact List.nodup_nil
  · exact m
  · exact m'
  · exact m

theorem js_in {o : Options} {n : String} {p : Path} (h : p ∈ (if o.wat || o.wasm then [o.output ++ [n ++ "_js", n ++ ".wat"],
      o.output ++ [n ++ "_js", "generate_witness.js"], o.output ++ [n ++ "_js", "witness_calculator.js"]] ++
      (if o.wasm then [o.output ++ [n ++ "_js", n ++ ".wasm"]] else []) else [])) : ∃ x, p = o.output ++ [n ++ "_js", x] := by
  split at h
  · simp only [List.mem_append, List.mem_cons, List.not_mem_nil, or_false, List.mem_ite_nil_right] at h
    rcases h with (h | h | h) | h
    · exact ⟨_, h⟩
    · exact ⟨_, h⟩
    · exact ⟨_, h⟩
    · exact ⟨_, h.2⟩
  · exact absurd h (by simp)

theorem written_nodup (o : Options) (c : Config) (hn : c.name = baseName o)
    (h4 : o.c = true → c.name = "json2bin64" → c.prime ≠ "goldilocks") : (written (allActs o c)).Nodup := by
  rw [written_allActs, List.nodup_append, List.nodup_append]
  refine ⟨⟨top_nodup _ _, ?_, ?_⟩, js_nodup _ _, ?_⟩
  · by_cases hc : o.c = true
    · obtain ⟨h1, h2, h3⟩ := baseName_free o hc
      rw [← hn] at h1 h2 h3
      exact c_nodup _ _ _ h1 h2 h3 (h4 hc)
    · unfold wantedC
      rw [if_neg hc]
      exact List.nodup_nil
  · rintro p hp q hq rfl
    obtain ⟨x, rfl⟩ := c_in hq
    exact top_free hp _ (Or.inl rfl) ((prefix_two _ _ _ _).2 rfl)
  · rintro p hp q hq rfl
    obtain ⟨x, rfl⟩ := js_in hq
    rcases List.mem_append.1 hp with hp | hp
    · exact top_free hp _ (Or.inr rfl) ((prefix_two _ _ _ _).2 rfl)
    · exact c_free hp ((prefix_two _ _ _ _).2 rfl)

end Verif.Driver
