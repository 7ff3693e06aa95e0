import Verif.Pragma
import Mathlib.Data.Prod.Lex
import Mathlib.Tactic.NormNum

/-!
# C101: pragmas and versions
-/

namespace Verif.Props.Pragma

open Verif.Pragma

/-- The versions a list of pragmas asks for. -/
def asked : List Prag → List Ver
  | [] => []
  | .version v :: ps => v :: asked ps
  | _ :: ps => asked ps

/-- The order of versions: by major number, then minor, then patch. -/
def le (a b : Ver) : Prop := a.major < b.major ∨ a.major = b.major ∧ (a.minor < b.minor ∨ a.minor = b.minor ∧ a.patch ≤ b.patch)

instance (a b : Ver) : Decidable (le a b) := by unfold le; infer_instance

/-- The numbers of a version fit into a machine word. -/
def Fit (v : Ver) : Prop := v.major < 2 ^ 64 ∧ v.minor < 2 ^ 64 ∧ v.patch < 2 ^ 64

/-- What a list of pragmas must be like for a compiler of version `comp`: all understood, none twice, the version asked for not later and of the
same major number, and not before 2.0.6 with custom templates (the version of the compiler counts if none is asked for). -/
structure Accept (comp : Ver) (ps : List Prag) : Prop where
  known : Prag.badVersion ∉ ps ∧ Prag.bad ∉ ps
  once : (asked ps).length ≤ 1 ∧ ps.count .custom ≤ 1
  version : ∀ v ∈ asked ps, v.major = comp.major ∧ le v comp
  custom : Prag.custom ∈ ps → ∀ v ∈ (if asked ps = [] then [comp] else asked ps), le ⟨2, 0, 6⟩ v

/-! ### Reading -/

theorem small_some {n : Nat} (h : n < 2 ^ 64) : small n = some n := if_pos h

theorem small_none {n : Nat} (h : ¬ n < 2 ^ 64) : small n = none := if_neg h

theorem parse_version (v : Ver) : parse (.version v) = if v.major < 2 ^ 64 ∧ v.minor < 2 ^ 64 ∧ v.patch < 2 ^ 64
    then some (some (.version v), []) else none := by
  unfold parse
  dsimp only
  by_cases h1 : v.major < 2 ^ 64
  · by_cases h2 : v.minor < 2 ^ 64
    · by_cases h3 : v.patch < 2 ^ 64
      · rw [small_some h1, small_some h2, small_some h3, if_pos ⟨h1, h2, h3⟩]
      · rw [small_some h1, small_some h2, small_none h3, if_neg fun h => h3 h.2.2]
    · rw [small_some h1, small_none h2, if_neg fun h => h2 h.2.1]
  · rw [small_none h1, if_neg fun h => h1 h.1]

/-- The pragmas that are understood. -/
def good : Prag → Bool
  | .version _ => true
  | .custom => true
  | _ => false

/-- The report for one that is not. -/
def bads : List Prag → List Rep
  | [] => []
  | .badVersion :: ps => .unrecognizedVersion :: bads ps
  | .bad :: ps => .unrecognizedPragma :: bads ps
  | _ :: ps => bads ps

theorem parseAll_eq : ∀ ps : List Prag, (∀ v ∈ asked ps, Fit v) → parseAll ps = some (ps.filter good, bads ps)
  | [], _ => rfl
  | p :: ps, h => by
    have ih := parseAll_eq ps fun v hv => h v (by
      cases p <;> first | exact hv | exact List.mem_cons_of_mem _ hv)
    unfold parseAll
    rw [ih]
    cases p with
    | version v =>
      have hv : v.major < 2 ^ 64 ∧ v.minor < 2 ^ 64 ∧ v.patch < 2 ^ 64 := h v (by simp [asked])
      rw [parse_version, if_pos hv]
      rfl
    | custom => rfl
    | badVersion => rfl
    | bad => rfl

theorem parseAll_none : ∀ ps : List Prag, (∃ v ∈ asked ps, ¬ Fit v) → parseAll ps = none
  | [], h => by obtain ⟨v, hv, -⟩ := h; simp [asked] at hv
  | p :: ps, h => by
    unfold parseAll
    by_cases ht : ∃ v ∈ asked ps, ¬ Fit v
    · rw [parseAll_none ps ht]
      cases parse p <;> rfl
    · obtain ⟨v, hv, hn⟩ := h
      cases p with
      | version w =>
        rcases List.mem_cons.1 (show v ∈ w :: asked ps by simpa [asked] using hv) with rfl | hv
        · rw [parse_version, if_neg (show ¬ (_ ∧ _ ∧ _) from hn)]
        · exact absurd ⟨v, hv, hn⟩ ht
      | custom => exact absurd ⟨v, by simpa [asked] using hv, hn⟩ ht
      | badVersion => exact absurd ⟨v, by simpa [asked] using hv, hn⟩ ht
      | bad => exact absurd ⟨v, by simpa [asked] using hv, hn⟩ ht

theorem bads_nil : ∀ {ps : List Prag}, bads ps = [] ↔ Prag.badVersion ∉ ps ∧ Prag.bad ∉ ps
  | [] => by simp [bads]
  | p :: ps => by
    have ih := bads_nil (ps := ps)
    cases p <;> simp [bads, ih]

/-- The loop of `AST::new` from any state. -/
theorem fold_spec : ∀ (ps : List Prag) (s : St),
    (ps.foldl astStep s).version = s.version.or (asked ps).head? ∧
    (ps.foldl astStep s).custom = s.custom.or (if Prag.custom ∈ ps then some true else none) ∧
    ((ps.foldl astStep s).reports = [] ↔ s.reports = [] ∧ (asked ps).length + s.version.toList.length ≤ max 1 s.version.toList.length ∧
      ps.count .custom + s.custom.toList.length ≤ max 1 s.custom.toList.length)
  | [], s => by simp [asked]
  | p :: ps, s => by
    obtain ⟨h1, h2, h3⟩ := fold_spec ps (astStep s p)
    rw [List.foldl_cons, h1, h2, h3]
    obtain ⟨sv, sc, sr⟩ := s
    cases p with
    | version v =>
      cases sv with
      | none =>
        refine ⟨?_, ?_, ?_⟩
        · simp [astStep, asked]
        · simp [astStep]
        · simp [astStep, asked]
      | some w =>
        refine ⟨?_, ?_, ?_⟩
        · simp [astStep, asked]
        · simp [astStep]
        · simp [astStep, asked]
    | custom =>
      cases sc with
      | none =>
        refine ⟨?_, ?_, ?_⟩
        · simp [astStep, asked]
        · simp [astStep]
        · simp [astStep, asked]
      | some w =>
        refine ⟨?_, ?_, ?_⟩
        · simp [astStep, asked]
        · simp [astStep]
        · simp [astStep, asked]
    | badVersion => refine ⟨?_, ?_, ?_⟩ <;> simp [astStep, asked]
    | bad => refine ⟨?_, ?_, ?_⟩ <;> simp [astStep, asked]

theorem asked_good : ∀ ps : List Prag, asked (ps.filter good) = asked ps
  | [] => rfl
  | p :: ps => by
    have ih := asked_good ps
    cases p <;> first | exact ih | exact congrArg (List.cons _) ih

theorem ast_spec (ps : List Prag) : (ast (ps.filter good)).1 = (asked ps).head? ∧
    ((ast (ps.filter good)).2.1 = true ↔ Prag.custom ∈ ps) ∧
    ((ast (ps.filter good)).2.2 = [] ↔ (asked ps).length ≤ 1 ∧ ps.count .custom ≤ 1) := by
  obtain ⟨h1, h2, h3⟩ := fold_spec (ps.filter good) ⟨none, none, []⟩
  unfold ast
  dsimp only
  refine ⟨by rw [h1, asked_good]; rfl, ?_, ?_⟩
  · rw [h2]
    by_cases hm : Prag.custom ∈ ps
    · simp [hm, good]
    · simp [hm, good]
  · rw [h3, asked_good, List.count_filter rfl]
    simp

/-! ### Comparisons -/

theorem checkNumber_none (comp : Ver) : checkNumber none comp = .ok [.noVersion] := rfl

theorem checkNumber_some (v comp : Ver) : checkNumber (some v) comp = if v.major = comp.major ∧ le v comp then .ok [] else .error .compilerVersion := by
  unfold checkNumber le
  dsimp only
  by_cases h : v.major = comp.major ∧ (v.major < comp.major ∨ v.major = comp.major ∧ (v.minor < comp.minor ∨ v.minor = comp.minor ∧ v.patch ≤ comp.patch))
  · rw [if_pos h, if_pos]
    simp only [Bool.and_eq_true, Bool.or_eq_true, beq_iff_eq, decide_eq_true_eq]
    omega
  · rw [if_neg h, if_neg]
    simp only [Bool.and_eq_true, Bool.or_eq_true, beq_iff_eq, decide_eq_true_eq]
    omega

theorem before_iff (v : Ver) : beforeCustom v = false ↔ le ⟨2, 0, 6⟩ v := by
  unfold beforeCustom le
  rw [← Bool.not_eq_true]
  simp only [Bool.or_eq_true, Bool.and_eq_true, beq_iff_eq, decide_eq_true_eq]
  omega

theorem le_trans' {a b c : Ver} (h : le a b) (h' : le b c) : le a c := by
  unfold le at *
  omega

/-! ### One file -/

/-- The work on a file after its pragmas are read and no report was given. -/
theorem file_eq {version : String} {comp : Ver} (hc : compilerVersion version = some comp) {ps : List Prag} (hf : ∀ v ∈ asked ps, Fit v) :
    (∀ r, file version ps = .go r ↔ Accept comp ps ∧ r = (decide (Prag.custom ∈ ps), if asked ps = [] then [.noVersion] else [])) ∧
    file version ps ≠ .panic := by
  obtain ⟨h1, h2, h3⟩ := ast_spec ps
  unfold file
  rw [parseAll_eq ps hf]
  dsimp only
  rcases hr : bads ps ++ (ast (ps.filter good)).2.2 with - | ⟨r0, rest⟩
  · have hb := List.append_eq_nil_iff.1 hr
    have hk := bads_nil.1 hb.1
    have ho := h3.1 hb.2
    dsimp only
    rw [hc, h1]
    dsimp only
    have hg : (ast (ps.filter good)).2.1 = decide (Prag.custom ∈ ps) := by
      by_cases hm : Prag.custom ∈ ps
      · rw [h2.2 hm, decide_eq_true hm]
      · rw [decide_eq_false hm]
        exact Bool.eq_false_iff.2 fun hh => hm (h2.1 hh)
    rw [hg]
    rcases ha : asked ps with - | ⟨v, tl⟩
    · rw [List.head?_nil, checkNumber_none]
      dsimp only
      by_cases hm : Prag.custom ∈ ps
      · rw [if_pos (decide_eq_true hm)]
        unfold checkCustom
        dsimp only
        rcases hbc : beforeCustom comp with - | -
        · simp only [Bool.false_eq_true, if_false]
          refine ⟨fun r => ⟨fun h => ?_, fun h => ?_⟩, by simp⟩
          · injection h with h
            refine ⟨⟨hk, by rw [ha] at ho ⊢; exact ho, by simp [ha], fun _ w hw => ?_⟩, by rw [← h]; simp [hm]⟩
            rw [ha, if_pos rfl, List.mem_singleton] at hw
            exact hw ▸ (before_iff comp).1 hbc
          · rw [h.2]; simp [hm]
        · simp only [if_true]
          refine ⟨fun r => ⟨fun h => (by cases h), fun h => ?_⟩, by simp⟩
          have := h.1.custom hm comp (by simp [ha])
          rw [← before_iff, hbc] at this
          cases this
      · rw [if_neg (by simp [hm])]
        refine ⟨fun r => ⟨fun h => ?_, fun h => ?_⟩, by simp⟩
        · injection h with h
          exact ⟨⟨hk, by rw [ha] at ho ⊢; exact ho, by simp [ha], fun hh => absurd hh hm⟩, by rw [← h]; simp⟩
        · rw [h.2]; simp
    · obtain rfl : tl = [] := by
        have := ho.1
        rw [ha] at this
        exact List.length_eq_zero_iff.1 (by simpa using this)
      rw [List.head?_cons, checkNumber_some]
      by_cases hv : v.major = comp.major ∧ le v comp
      · rw [if_pos hv]
        dsimp only
        by_cases hm : Prag.custom ∈ ps
        · rw [if_pos (decide_eq_true hm)]
          unfold checkCustom
          dsimp only
          rcases hbc : beforeCustom v with - | -
          · simp only [Bool.false_eq_true, if_false]
            refine ⟨fun r => ⟨fun h => ?_, fun h => ?_⟩, by simp⟩
            · injection h with h
              refine ⟨⟨hk, by rw [ha] at ho ⊢; exact ho, by simpa [ha] using hv, fun _ w hw => ?_⟩, by rw [← h]; simp [hm]⟩
              rw [ha, if_neg (by simp), List.mem_singleton] at hw
              exact hw ▸ (before_iff v).1 hbc
            · rw [h.2]; simp [hm]
          · simp only [if_true]
            refine ⟨fun r => ⟨fun h => (by cases h), fun h => ?_⟩, by simp⟩
            have := h.1.custom hm v (by simp [ha])
            rw [← before_iff, hbc] at this
            cases this
        · rw [if_neg (by simp [hm])]
          refine ⟨fun r => ⟨fun h => ?_, fun h => ?_⟩, by simp⟩
          · injection h with h
            exact ⟨⟨hk, by rw [ha] at ho ⊢; exact ho, by simpa [ha] using hv, fun hh => absurd hh hm⟩, by rw [← h]; simp⟩
          · rw [h.2]; simp
      · rw [if_neg hv]
        exact ⟨fun r => ⟨fun h => (by cases h), fun h => absurd (h.1.version v (by simp [ha])) hv⟩, by simp⟩
  · dsimp only
    refine ⟨fun r => ⟨fun h => (by cases h), fun h => ?_⟩, by simp⟩
    have e1 := bads_nil.2 h.1.known
    have e2 := h3.2 h.1.once
    rw [e1, e2] at hr
    cases hr

/-- **C101 (one file).**  A compiler whose version is known goes on with a file exactly if its pragmas are acceptable; it warns once, exactly if the file asks
for no version; and it allows custom templates exactly if the pragma for them is there.  Otherwise it ends with a report. -/
theorem C101_file_partial {version : String} {comp : Ver} (hc : compilerVersion version = some comp) {ps : List Prag} (hf : ∀ v ∈ asked ps, Fit v) :
    (∀ g ws, file version ps = .go (g, ws) ↔
      Accept comp ps ∧ (g = true ↔ Prag.custom ∈ ps) ∧ ((asked ps = [] ∧ ws = [.noVersion]) ∨ (asked ps ≠ [] ∧ ws = []))) ∧
    (¬ Accept comp ps → ∃ r rs, file version ps = .stop (r :: rs)) := by
  obtain ⟨h1, h2⟩ := file_eq hc hf
  refine ⟨fun g ws => ?_, fun hn => ?_⟩
  · rw [h1, Prod.mk.injEq]
    refine and_congr_right fun _ => and_congr ?_ ?_
    · by_cases hm : Prag.custom ∈ ps <;> simp [hm]
    · by_cases ha : asked ps = [] <;> simp [ha]
  · have hne : ∀ r, file version ps ≠ .go r := fun r hr => hn ((h1 r).1 hr).1
    clear h1
    unfold file at *
    rw [parseAll_eq ps hf] at *
    dsimp only at *
    rcases hr : bads ps ++ (ast (ps.filter good)).2.2 with - | ⟨r0, rest⟩
    · rw [hr] at hne
      dsimp only at hne ⊢
      rw [hc] at hne ⊢
      dsimp only at hne ⊢
      split
      · exact ⟨_, _, rfl⟩
      · next ws hws =>
        rw [hws] at hne
        dsimp only at hne
        split
        · next hg =>
          rw [if_pos hg] at hne
          split
          · exact ⟨_, _, rfl⟩
          · next hok =>
            rw [hok] at hne
            exact absurd rfl (hne _)
        · next hg =>
          rw [if_neg hg] at hne
          exact absurd rfl (hne _)
    · exact ⟨_, _, rfl⟩

/-- **C101 (later compilers).**  A file that a compiler takes is taken, with the same warnings, by every later one of the same major number. -/
theorem C101_later {v v' : String} {comp comp' : Ver} (hc : compilerVersion v = some comp) (hc' : compilerVersion v' = some comp')
    (hm : comp.major = comp'.major) (hl : le comp comp') {ps : List Prag} {g : Bool} {ws : List Rep} (h : file v ps = .go (g, ws)) :
    file v' ps = .go (g, ws) := by
  have hf : ∀ w ∈ asked ps, Fit w := by
    by_contra hn
    push Not at hn
    unfold file at h
    rw [parseAll_none ps hn] at h
    cases h
  obtain ⟨ha, hr⟩ := ((file_eq hc hf).1 _).1 h
  refine ((file_eq hc' hf).1 _).2 ⟨⟨ha.known, ha.once, fun w hw => ?_, fun hcu w hw => ?_⟩, hr⟩
  · obtain ⟨e, l⟩ := ha.version w hw
    exact ⟨e.trans hm, le_trans' l hl⟩
  · by_cases he : asked ps = []
    · rw [if_pos he, List.mem_singleton] at hw
      subst hw
      exact le_trans' (ha.custom hcu comp (by simp [he])) hl
    · exact ha.custom hcu w (by rw [if_neg he] at hw ⊢; exact hw)

/-! ### All files -/

/-- **C101 (program).**  The compiler goes on with a program exactly if it goes on with each of its files; it gives a warning for each file without a version
and no other. -/
theorem C101_program_partial {version : String} {comp : Ver} (hc : compilerVersion version = some comp) :
    ∀ {fs : List (List Prag)}, (∀ ps ∈ fs, ∀ v ∈ asked ps, Fit v) →
    ((∃ r, files version fs = .go r) ↔ ∀ ps ∈ fs, Accept comp ps) ∧
    ∀ gs ws, files version fs = .go (gs, ws) →
      gs = fs.map (fun ps => decide (Prag.custom ∈ ps)) ∧ ws = List.replicate (fs.countP fun ps => asked ps = []) .noVersion
  | [], _ => ⟨by simp [files], fun gs ws h => by simp only [files, Res.go.injEq, Prod.mk.injEq] at h; simp [← h.1, ← h.2]⟩
  | f :: fs, hf => by
    obtain ⟨i1, i2⟩ := C101_program_partial hc (fs := fs) fun ps hp => hf ps (List.mem_cons_of_mem _ hp)
    obtain ⟨j1, j2⟩ := file_eq hc (hf f List.mem_cons_self)
    refine ⟨⟨fun ⟨r, hr⟩ => ?_, fun h => ?_⟩, fun gs ws h => ?_⟩
    · unfold files at hr
      split at hr
      · cases hr
      · cases hr
      · next g w hg =>
        split at hr
        · cases hr
        · cases hr
        · next gs ws hgs => exact List.forall_mem_cons.2 ⟨((j1 _).1 hg).1, i1.1 ⟨_, hgs⟩⟩
    · obtain ⟨h1, h2⟩ := List.forall_mem_cons.1 h
      obtain ⟨⟨gs, ws⟩, hr⟩ := i1.2 h2
      have he : files version (f :: fs) = .go (decide (Prag.custom ∈ f) :: gs, (if asked f = [] then [.noVersion] else []) ++ ws) := by
        unfold files
        rw [(j1 _).2 ⟨h1, rfl⟩]
        dsimp only
        rw [hr]
      exact ⟨_, he⟩
    · unfold files at h
      split at h
      · cases h
      · cases h
      · next g w hg =>
        split at h
        · cases h
        · cases h
        · next gs' ws' hgs =>
          injection h with h
          obtain ⟨k1, k2⟩ := i2 _ _ hgs
          obtain ⟨-, hw⟩ := (j1 _).1 hg
          obtain ⟨hw1, hw2⟩ := Prod.mk.inj hw
          obtain ⟨rfl, rfl⟩ := Prod.mk.inj h
          refine ⟨by rw [hw1, k1, List.map_cons], ?_⟩
          rw [hw2, k2, List.countP_cons]
          by_cases ha : asked f = []
          · simp [ha, List.replicate_succ]
          · simp [ha]

/-- **C101 fails for large numbers.**  A version with a number that is no machine word is not reported: the compiler panics, whatever else the file has. -/
theorem C101_panic_violated (version : String) {ps : List Prag} (h : ∃ v ∈ asked ps, ¬ Fit v) : file version ps = .panic := by
  unfold file
  rw [parseAll_none ps h]

/-! ### Cases -/

/-- The version of this compiler (circom/Cargo.toml:3, circom/src/main.rs:7). -/
def current : String := "2.2.3"

theorem current_version : compilerVersion current = some ⟨2, 2, 3⟩ := by decide +kernel

example : file current [.custom, .version ⟨2, 1, 9⟩] = .go (true, []) := by decide +kernel
example : file current [.custom] = .go (true, [.noVersion]) := by decide +kernel
example : file current [.version ⟨2, 2, 4⟩] = .stop [.compilerVersion] := by decide +kernel
example : file current [.version ⟨1, 9, 9⟩] = .stop [.compilerVersion] := by decide +kernel
example : file current [.version ⟨2, 0, 5⟩, .custom] = .stop [.customVersion] := by decide +kernel
example : file current [.version ⟨2, 0, 5⟩, .bad, .version ⟨2, 0, 5⟩] = .stop [.unrecognizedPragma, .multiplePragma] := by decide +kernel
example : files current [[.version ⟨2, 0, 0⟩], [], [.custom]] = .go ([false, false, true], [.noVersion, .noVersion]) := by decide +kernel
example : ∃ v ∈ asked [Prag.version ⟨2, 0, 18446744073709551616⟩], ¬ Fit v := ⟨_, List.mem_singleton.2 rfl, by unfold Fit; decide⟩

example : Accept ⟨2, 2, 3⟩ [.custom, .version ⟨2, 1, 9⟩] :=
  ((file_eq current_version (ps := [.custom, .version ⟨2, 1, 9⟩]) (by
    intro v hv
    obtain rfl := List.mem_singleton.1 hv
    unfold Fit
    decide)).1 _).1 (show _ = Res.go (true, []) by decide +kernel) |>.1

end Verif.Props.Pragma
