import Verif.IncludeLemmas

set_option linter.unusedSectionVars false

/-!
Property C49 (include processing takes each reachable file exactly once and stops) and
C50 (the custom-template pragma check reports exactly the offending include chains).
-/

namespace Verif.Props.Include
open Verif.Include Relation

variable {P N : Type} [DecidableEq P]

/-- C49. When include processing succeeds, no path was taken twice and the paths taken are exactly those
reachable from the main file through includes. -/
theorem C49_each_once {fs : FS P N} (hs : fs.Sane) {libs : List P} {fuel : Nat} {main : P} {st : St P}
    (h : collect fs libs fuel main = .ok st) :
    st.black.Nodup ∧ ∀ f, f ∈ st.black ↔ ReflTransGen (Inc fs libs) main f := by
  obtain ⟨hi, hst⟩ := loop_inv hs fuel (init_inv fs libs main) h
  refine ⟨hi.nodup, fun f => ⟨hi.reachB f, fun hf => ?_⟩⟩
  induction hf with
  | refl => simpa [hst] using hi.main
  | tail _ hbc ih => simpa [hst] using hi.closed _ ih _ hbc

/-- C49. Two paths taken, none of them the main one, never lead to the same file. -/
theorem C49_each_file_once_partial {fs : FS P N} (hs : fs.Sane) {libs : List P} {fuel : Nat} {main : P} {st : St P}
    (h : collect fs libs fuel main = .ok st) {f g : P} (hf : f ∈ st.black) (hg : g ∈ st.black)
    (hfm : f = main → fs.canon main = some main) (hgm : g = main → fs.canon main = some main)
    (heq : fs.canon f = fs.canon g) : f = g := by
  obtain ⟨-, hall⟩ := C49_each_once hs h
  have key : ∀ x ∈ st.black, (x = main → fs.canon main = some main) → fs.canon x = some x := by
    intro x hx hm
    rcases ReflTransGen.cases_tail ((hall x).1 hx) with h | ⟨y, _, _, _, _, n, _, hn⟩
    · subst h; exact hm rfl
    · exact search_canon hs hn
  rw [key f hf hfm, key g hg hgm] at heq
  exact Option.some.inj heq

/-- C49. Include processing stops: if only finitely many paths are reachable, the loop ends after at most
one iteration for each of them and one more, cyclic includes or not. -/
theorem C49_stops {fs : FS P N} (hs : fs.Sane) {libs : List P} {main : P} {U : List P}
    (hU : ∀ f, ReflTransGen (Inc fs libs) main f → f ∈ U) {fuel : Nat} (hf : U.length < fuel) :
    collect fs libs fuel main ≠ .error .outOfFuel :=
  loop_fuel hs hU fuel (init_inv fs libs main) (by simpa [init] using hf)

/-- C49. Include processing succeeds exactly if every reachable file can be read and parsed and all
names it includes are found. -/
theorem C49_succeeds_iff {fs : FS P N} (hs : fs.Sane) {libs : List P} {main : P} {U : List P}
    (hU : ∀ f, ReflTransGen (Inc fs libs) main f → f ∈ U) {fuel : Nat} (hf : U.length < fuel) :
    (∃ st, collect fs libs fuel main = .ok st) ↔ ∀ f, ReflTransGen (Inc fs libs) main f → Good fs libs f := by
  constructor
  · rintro ⟨st, h⟩ f hr
    obtain ⟨hi, -⟩ := loop_inv hs fuel (init_inv fs libs main) h
    exact hi.good f (((C49_each_once hs h).2 f).2 hr)
  · intro hall
    cases hc : collect fs libs fuel main with
    | ok st => exact ⟨st, rfl⟩
    | error e =>
      have he : e ≠ .outOfFuel := by
        rintro rfl
        exact C49_stops hs hU hf hc
      obtain ⟨f, hr, hb⟩ := loop_error hs fuel (init_inv fs libs main) hc he
      exact absurd (hall f hr) hb

/-! Concrete file systems. A path is a pair of a canonical file number and a flag: `false` for a path as
written by the user, `true` for the canonical one. The includes are given by a table. -/

/-- A file system on files `0 … tbl.length - 1`. -/
def table (tbl : List (List Nat × Bool × Bool)) : FS (Nat × Bool) Nat where
  canon p := some (p.1, true)
  isFile p := decide (p.1 < tbl.length)
  join _ n := (n, false)
  within _ q := q
  dir p := p
  read p := (tbl[p.1]?).map fun x => some ⟨x.1, x.2.1, x.2.2⟩

theorem table_sane (tbl : List (List Nat × Bool × Bool)) : (table tbl).Sane where
  canon_canon := by
    intro p q h
    simp only [table, Option.some.injEq] at h ⊢
    rw [← h]
  within_canon := by intro p q _ l; rfl

/-- File 0 includes 1 and 2, file 1 includes 2, file 2 includes 1: a cycle. Each is taken once. -/
example : (match collect (table [([1, 2], true, false), ([2], true, false), ([1], true, true)]) [] 4 (0, true) with
    | .ok st => decide (st.black = [(0, true), (2, true), (1, true)])
    | _ => false) = true := by decide +kernel

/-- The hypotheses of `C49_succeeds_iff` hold there. -/
example : ∃ st, collect (table [([1, 2], true, false), ([2], true, false), ([1], true, true)]) [] 4 (0, true) = .ok st := by
  refine (C49_succeeds_iff (table_sane _) (U := [(0, true), (1, true), (2, true)]) ?_ (by decide)).2 ?_
  all_goals
    have hU : ∀ f, ReflTransGen (Inc (table [([1, 2], true, false), ([2], true, false), ([1], true, true)]) [])
        ((0, true) : Nat × Bool) f → f ∈ [((0 : Nat), true), (1, true), (2, true)] := by
      intro f hf
      rcases ReflTransGen.cases_tail hf with h | ⟨y, _, _, _, _, n, _, hn⟩
      · subst h; decide
      · have hsp : n < 3 ∧ ((n, true) : Nat × Bool) = f := by
          have hn' : (if decide (n < 3) = true then some ((n, true) : Nat × Bool) else none) = some f := hn
          by_cases hlt : n < 3
          · rw [if_pos (by simpa using hlt)] at hn'
            exact ⟨hlt, Option.some.inj hn'⟩
          · rw [if_neg (by simpa using hlt)] at hn'
            cases hn'
        obtain ⟨hlt, rfl⟩ := hsp
        have : n = 0 ∨ n = 1 ∨ n = 2 := by omega
        rcases this with rfl | rfl | rfl <;> decide
  · exact hU
  · intro f hf
    have := hU f hf
    simp only [List.mem_cons, List.not_mem_nil, or_false] at this
    rcases this with rfl | rfl | rfl
    · refine ⟨(0, true), ⟨[1, 2], true, false⟩, rfl, ?_⟩
      simp [search, table]
    · refine ⟨(1, true), ⟨[2], true, false⟩, rfl, ?_⟩
      simp [search, table]
    · refine ⟨(2, true), ⟨[1], true, true⟩, rfl, ?_⟩
      simp [search, table]

/-- C49 does not hold for files (as opposed to paths): the path of the main file is used as the user
wrote it, those of included files are canonical (input_user.rs and lib.rs:68 against
include_logic.rs:30-33). If a file includes the main file, the main file is taken twice. -/
theorem C49_each_file_once_violated :
    ∃ (fs : FS (Nat × Bool) Nat) (main : Nat × Bool) (st : St (Nat × Bool)), fs.Sane ∧
      collect fs [] 4 main = .ok st ∧
      ∃ f ∈ st.black, ∃ g ∈ st.black, f ≠ g ∧ fs.canon f = fs.canon g := by
  refine ⟨table [([1], true, false), ([0], true, false)], (0, false), ?_⟩
  have key : (match collect (table [([1], true, false), ([0], true, false)]) [] 4 (0, false) with
    | .ok st => decide ((0, false) ∈ st.black ∧ (0, true) ∈ st.black)
    | _ => false) = true := by decide +kernel
  split at key
  · rename_i st h
    simp only [decide_eq_true_eq] at key
    exact ⟨st, table_sane _, h, (0, false), key.1, (0, true), key.2, by decide, rfl⟩
  · cases key

/-! ### C50 -/

/-- Specification: reading `f` gives a file with this pragma flag and this use of custom templates. -/
def Has (fs : FS P N) (libs : List P) (f : P) (pragma : Option Bool) (gates : Option Bool) : Prop :=
  ∃ path file, load fs libs f = some (path, some file) ∧ (∀ b, pragma = some b → file.pragma = b) ∧
    (∀ b, gates = some b → file.gates = b)

/-- C50. If include processing succeeds, the pragma check (a) ends and (b) reports something exactly when
some file without the pragma reaches, through includes, a file that declares custom templates. The main
file is supposed to be found at the path given (not through a library). -/
theorem C50_exact {fs : FS P N} (hs : fs.Sane) {libs : List P} {fuel : Nat} {main : P} {st : St P}
    (h : collect fs libs fuel main = .ok st) (hmain : (fs.read main).isSome) :
    ∃ bound, ∀ depth, bound ≤ depth → ∃ ps, problematic st depth st.gates = .ok ps ∧
      (ps ≠ [] ↔ ∃ f g, ReflTransGen (Inc fs libs) main f ∧ ReflTransGen (Inc fs libs) f g ∧
        Has fs libs f (some false) none ∧ Has fs libs g none (some true)) := by
  obtain ⟨hi, hst⟩ := loop_inv hs fuel (init_inv fs libs main) h
  obtain ⟨hnd, hall⟩ := C49_each_once hs h
  have hlen : st.nodes.length = st.black.length := hi.nodes.length_eq.symm
  -- the nodes carry the paths that were taken
  have hpath : ∀ (i : Nat) f, st.black[i]? = some f → ∃ file, load fs libs f = some (f, some file) ∧
      st.nodes[i]? = some (f, file.pragma) := by
    intro i f hf
    obtain ⟨hib, hget⟩ := List.getElem?_eq_some_iff.1 hf
    have hget2 := List.forall₂_iff_get.1 hi.nodes |>.2 i hib (by omega)
    simp only [List.get_eq_getElem, hget] at hget2
    obtain ⟨path, file, hl, hx⟩ := hget2
    have hp : path = f := by
      by_cases hfm : f = main
      · subst hfm
        obtain ⟨r, hr⟩ := Option.isSome_iff_exists.1 hmain
        simp only [load, findFile, hr, Option.some.injEq, Prod.mk.injEq] at hl
        exact hl.1.symm
      · rcases ReflTransGen.cases_tail (hi.reachB f (List.mem_of_getElem? hf)) with h | ⟨y, _, _, _, _, n, _, hn⟩
        · exact absurd h hfm
        · have hc := search_canon hs hn
          have : ∀ ps : List P, (∀ p ∈ ps, p = f) → ∀ r, findFile fs ps = some r → r.1 = f := by
            intro ps
            induction ps with
            | nil => intro _ r h; simp [findFile] at h
            | cons p ps ih =>
              intro hps r h
              simp only [findFile] at h
              split at h
              · injection h with h
                subst h
                exact hps p (by simp)
              · exact ih (fun q hq => hps q (by simp [hq])) r h
          refine this _ ?_ _ hl
          intro p hp
          rcases List.mem_cons.1 hp with rfl | hp
          · rfl
          · obtain ⟨l, _, rfl⟩ := List.mem_map.1 hp
            exact hs.within_canon hc l
    subst hp
    exact ⟨file, hl, by rw [List.getElem?_eq_getElem (by omega), hx]⟩
  have hidx : ∀ f, ReflTransGen (Inc fs libs) main f → ∃ i : Nat, st.black[i]? = some f := by
    intro f hf
    exact List.mem_iff_getElem?.1 ((hall f).2 hf)
  have hedge : ∀ (i : Nat) f, st.black[i]? = some f → ∀ j, Edge st i j ↔ ∃ g, st.black[j]? = some g ∧ Inc fs libs g f := by
    intro i f hf j
    obtain ⟨file, _, hn⟩ := hpath i f hf
    simp only [Edge, hn, Option.some.injEq]
    constructor
    · rintro ⟨x, rfl, hx⟩
      exact (hi.adj _ _).1 hx
    · intro h
      exact ⟨_, rfl, (hi.adj _ _).2 h⟩
  have hrange : ∀ q, ∀ i ∈ st.adj q, i < st.nodes.length := by
    intro q i hiq
    obtain ⟨f, hf, _⟩ := (hi.adj q i).1 hiq
    rw [hlen]
    exact (List.getElem?_eq_some_iff.1 hf).1
  have hgrange : ∀ i ∈ st.gates, i < st.nodes.length := by
    intro i hig
    obtain ⟨f, _, _, hf, _⟩ := (hi.gates i).1 hig
    rw [hlen]
    exact (List.getElem?_eq_some_iff.1 hf).1
  -- chains of nodes are chains of includes, backwards
  have hback : ∀ i j, ReflTransGen (Edge st) i j → ∀ f, st.black[i]? = some f →
      ∃ g, st.black[j]? = some g ∧ ReflTransGen (Inc fs libs) g f := by
    intro i j hij
    induction hij with
    | refl => intro f hf; exact ⟨f, hf, .refl⟩
    | tail _ hbc ih =>
      intro f hf
      obtain ⟨g, hg, hgf⟩ := ih f hf
      obtain ⟨k, hk, hkg⟩ := (hedge _ g hg _).1 hbc
      exact ⟨k, hk, .head hkg hgf⟩
  have hforth : ∀ f g, ReflTransGen (Inc fs libs) f g → ReflTransGen (Inc fs libs) main f →
      ∀ i j : Nat, st.black[i]? = some g → st.black[j]? = some f → ReflTransGen (Edge st) i j := by
    intro f g hfg
    induction hfg with
    | refl =>
      intro _ i j hi' hj'
      have : i = j := by
        obtain ⟨a1, a2⟩ := List.getElem?_eq_some_iff.1 hi'
        obtain ⟨b1, b2⟩ := List.getElem?_eq_some_iff.1 hj'
        exact (hnd.getElem_inj_iff).1 (a2.trans b2.symm)
      subst this
      exact .refl
    | @tail b c hfb hbc ih =>
      intro hmf i j hi' hj'
      obtain ⟨k, hk⟩ := hidx b (hmf.trans hfb)
      exact .head ((hedge i c hi' k).2 ⟨b, hk, hbc⟩) (ih hmf k j hk hj')
  -- a list of all edges
  let EL := (List.range st.nodes.length).flatMap fun a => (List.range st.nodes.length).map fun b => (a, b)
  have hEL : ∀ a b, Edge st a b → (a, b) ∈ EL := by
    rintro a b ⟨x, hx, hb⟩
    refine List.mem_flatMap.2 ⟨a, List.mem_range.2 (List.getElem?_eq_some_iff.1 hx).1, ?_⟩
    exact List.mem_map.2 ⟨b, List.mem_range.2 (hrange _ b hb), rfl⟩
  refine ⟨EL.length + 1, fun depth hd => ?_⟩
  have hprob : ∀ gs : List Nat, (∀ i ∈ gs, i < st.nodes.length) → ∃ ps, problematic st depth gs = .ok ps ∧
      (ps ≠ [] ↔ ∃ i ∈ gs, ∃ j p, ReflTransGen (Edge st) i j ∧ st.nodes[j]? = some (p, false)) := by
    intro gs
    induction gs with
    | nil => intro _; exact ⟨[], rfl, by simp⟩
    | cons i gs ih =>
      intro hgs
      obtain ⟨y, hy, hiff⟩ := ih fun k hk => hgs k (by simp [hk])
      obtain ⟨x, hx⟩ := traverse_ok hrange hEL depth (path := []) (trav := []) (hgs i (by simp)) List.nodup_nil
        (by simp) (by simp; omega)
      refine ⟨x ++ y, by simp only [problematic, hx, hy], ?_⟩
      have hxi : x ≠ [] ↔ ∃ j p, ReflTransGen (Edge st) i j ∧ st.nodes[j]? = some (p, false) := by
        constructor
        · intro h0
          exact traverse_sound depth hx h0
        · rintro ⟨j, p, h1, h2⟩
          refine traverse_complete depth hx ?_ h2
          exact ReflTransGen.mono (fun a b hab => ⟨hab, by simp⟩) _ _ h1
      simp only [List.mem_cons, exists_eq_or_imp]
      rw [← hxi, ← hiff]
      by_cases hx0 : x = []
      · simp [hx0]
      · simp [hx0]
  obtain ⟨ps, hps, hiff⟩ := hprob st.gates hgrange
  refine ⟨ps, hps, hiff.trans ?_⟩
  constructor
  · rintro ⟨i, hig, j, p, hij, hj⟩
    obtain ⟨g, path, file, hg, hl, hgt⟩ := (hi.gates i).1 hig
    obtain ⟨f, hf, hfg⟩ := hback i j hij g hg
    obtain ⟨file', hl', hn'⟩ := hpath j f hf
    rw [hj] at hn'
    injection hn' with hn'
    injection hn' with _ hn'
    refine ⟨f, g, hi.reachB f (List.mem_of_getElem? hf), hfg, ⟨_, _, hl', ?_, by simp⟩, ⟨_, _, hl, by simp, ?_⟩⟩
    · intro b hb
      injection hb with hb
      rw [← hn', hb]
    · intro b hb
      injection hb with hb
      rw [hgt, hb]
  · rintro ⟨f, g, hmf, hfg, ⟨p1, file1, hl1, hp1, _⟩, ⟨p2, file2, hl2, _, hp2⟩⟩
    obtain ⟨i, hig⟩ := hidx g (hmf.trans hfg)
    obtain ⟨j, hjf⟩ := hidx f hmf
    obtain ⟨file', hl', hn'⟩ := hpath j f hjf
    rw [hl1] at hl'
    injection hl' with hl'
    injection hl' with _ hl'
    injection hl' with hl'
    subst hl'
    refine ⟨i, (hi.gates i).2 ⟨g, p2, file2, hig, hl2, hp2 true rfl⟩, j, f, hforth f g hfg hmf i j hig hjf, ?_⟩
    rw [hn', hp1 false rfl]

/-- File 0 (no pragma) includes 1, which includes 2 (custom templates) and 0: one offending chain, found
despite the cycle. -/
example : (match collect (table [([1], false, false), ([2, 0], true, false), ([1], true, true)]) [] 4 (0, true) with
    | .ok st => decide (problematic st 10 st.gates = .ok [[(2, true), (1, true), (0, true), (1, true)].take 3])
    | _ => false) = true := by decide +kernel

/-- With the pragma in all files nothing is reported. -/
example : (match collect (table [([1], true, false), ([2, 0], true, false), ([1], true, true)]) [] 4 (0, true) with
    | .ok st => decide (problematic st 10 st.gates = .ok [])
    | _ => false) = true := by decide +kernel

end Verif.Props.Include
