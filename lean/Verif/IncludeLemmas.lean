import Verif.Include
import Mathlib.Logic.Relation
import Mathlib.Data.List.Nodup
import Mathlib.Data.List.Perm.Subperm

set_option linter.unusedSectionVars false
set_option linter.unusedSimpArgs false

/-! Lemmas about the treatment of included files. -/

namespace Verif.Include

variable {P N : Type} [DecidableEq P]

/-- Facts about every file system: canonical paths are their own canonical form; pushing a canonical
path (which is absolute) onto another one replaces it. -/
structure FS.Sane (fs : FS P N) : Prop where
  canon_canon : ∀ {p q}, fs.canon p = some q → fs.canon q = some q
  within_canon : ∀ {p q}, fs.canon p = some q → ∀ l, fs.within l q = q

/-- Specification: file `f` includes file `g`. -/
def Inc (fs : FS P N) (libs : List P) (f g : P) : Prop :=
  ∃ path file, load fs libs f = some (path, some file) ∧
    ∃ n ∈ file.includes, search fs n (fs.dir f :: libs) = some g

/-- Specification: file `f` can be read and parsed and all its includes are found. -/
def Good (fs : FS P N) (libs : List P) (f : P) : Prop :=
  ∃ path file, load fs libs f = some (path, some file) ∧
    ∀ n ∈ file.includes, ∃ g, search fs n (fs.dir f :: libs) = some g

theorem search_canon {fs : FS P N} (hs : fs.Sane) {n : N} {g : P} : ∀ {ls : List P},
    search fs n ls = some g → fs.canon g = some g := by
  intro ls
  induction ls with
  | nil => intro h; simp [search] at h
  | cons l ls ih =>
    intro h
    simp only [search] at h
    split at h
    · exact ih h
    · rename_i path hc
      split at h
      · injection h with h
        subst h
        exact hs.canon_canon hc
      · exact ih h

theorem takeNext_some {black stack rest : List P} {f : P} (h : takeNext black stack = some (f, rest)) :
    f ∉ black ∧ f ∈ stack ∧ (∀ x ∈ rest, x ∈ stack) ∧ ∀ x ∈ stack, x ∈ black ∨ x = f ∨ x ∈ rest := by
  induction stack with
  | nil => simp [takeNext] at h
  | cons g stack ih =>
    simp only [takeNext] at h
    split at h
    · rename_i hg
      obtain ⟨h1, h2, h3, h4⟩ := ih h
      refine ⟨h1, by simp [h2], fun x hx => by simp [h3 x hx], ?_⟩
      intro x hx
      rcases List.mem_cons.1 hx with rfl | hx
      · exact .inl hg
      · exact h4 x hx
    · rename_i hg
      simp only [Option.some.injEq, Prod.mk.injEq] at h
      obtain ⟨rfl, rfl⟩ := h
      refine ⟨hg, by simp, fun x hx => by simp [hx], ?_⟩
      intro x hx
      rcases List.mem_cons.1 hx with rfl | hx
      · exact .inr (.inl rfl)
      · exact .inr (.inr hx)

theorem takeNext_none {black stack : List P} (h : takeNext black stack = none) : ∀ x ∈ stack, x ∈ black := by
  induction stack with
  | nil => simp
  | cons g stack ih =>
    simp only [takeNext] at h
    split at h
    · rename_i hg
      intro x hx
      rcases List.mem_cons.1 hx with rfl | hx
      · exact hg
      · exact ih h x hx
    · cases h

/-- Effect of the loop over the includes of one file. -/
theorem addIncludes_ok {fs : FS P N} (hs : fs.Sane) {libs : List P} (ns : List N) : ∀ {st st' : St P},
    addIncludes fs libs ns st = .ok st' →
    st'.loc = st.loc ∧ st'.black = st.black ∧ st'.nodes = st.nodes ∧ st'.gates = st.gates ∧
    (∀ n ∈ ns, ∃ g, search fs n (st.loc :: libs) = some g) ∧
    (∀ x, x ∈ st'.stack ↔ x ∈ st.stack ∨ (x ∉ st.black ∧ ∃ n ∈ ns, search fs n (st.loc :: libs) = some x)) ∧
    (∀ q i, i ∈ st'.adj q ↔ i ∈ st.adj q ∨
      (i = st.nodes.length - 1 ∧ ∃ n ∈ ns, search fs n (st.loc :: libs) = some q)) := by
  induction ns with
  | nil =>
    intro st st' h
    simp only [addIncludes, Except.ok.injEq] at h
    subst h
    simp
  | cons n ns ih =>
    intro st st' h
    simp only [addIncludes, addInclude] at h
    cases hg : search fs n (st.loc :: libs) with
    | none => rw [hg] at h; cases h
    | some g =>
      rw [hg] at h
      simp only [addEdge, search_canon hs hg] at h
      obtain ⟨h1, h2, h3, h4, h5, h6, h7⟩ := ih h
      have e1 : (if g ∈ st.black then st else { st with stack := g :: st.stack }).loc = st.loc := by
        split <;> rfl
      have e2 : (if g ∈ st.black then st else { st with stack := g :: st.stack }).black = st.black := by
        split <;> rfl
      have e3 : (if g ∈ st.black then st else { st with stack := g :: st.stack }).nodes = st.nodes := by
        split <;> rfl
      have e4 : (if g ∈ st.black then st else { st with stack := g :: st.stack }).gates = st.gates := by
        split <;> rfl
      have e5 : (if g ∈ st.black then st else { st with stack := g :: st.stack }).adj = st.adj := by
        split <;> rfl
      simp only [e1, e2, e3, e4, e5] at h1 h2 h3 h4 h5 h6 h7
      refine ⟨h1, h2, h3, h4, ?_, ?_, ?_⟩
      · intro m hm
        rcases List.mem_cons.1 hm with rfl | hm
        · exact ⟨g, hg⟩
        · exact h5 m hm
      · intro x
        rw [h6]
        by_cases hb : g ∈ st.black
        · simp only [if_pos hb, List.mem_cons, exists_eq_or_imp, hg, Option.some.injEq]
          constructor
          · rintro (h | ⟨h, h'⟩)
            · exact .inl h
            · exact .inr ⟨h, .inr h'⟩
          · rintro (h | ⟨h, rfl | h'⟩)
            · exact .inl h
            · exact absurd hb h
            · exact .inr ⟨h, h'⟩
        · simp only [if_neg hb, List.mem_cons, exists_eq_or_imp, hg, Option.some.injEq]
          constructor
          · rintro ((rfl | h) | ⟨h, h'⟩)
            · exact .inr ⟨hb, .inl rfl⟩
            · exact .inl h
            · exact .inr ⟨h, .inr h'⟩
          · rintro (h | ⟨h, rfl | h'⟩)
            · exact .inl (.inr h)
            · exact .inl (.inl rfl)
            · exact .inr ⟨h, h'⟩
      · intro q i
        rw [h7]
        simp only [List.mem_cons, exists_eq_or_imp, hg, Option.some.injEq]
        by_cases hq : q = g
        · subst hq
          simp only [if_true, List.mem_append, List.mem_singleton]
          constructor
          · rintro ((h | h) | ⟨h, h'⟩)
            · exact .inl h
            · exact .inr ⟨h, .inl (by trivial)⟩
            · exact .inr ⟨h, .inr h'⟩
          · rintro (h | ⟨h, _ | h'⟩)
            · exact .inl (.inl h)
            · exact .inl (.inr h)
            · exact .inr ⟨h, h'⟩
        · simp only [if_neg hq]
          constructor
          · rintro (h | ⟨h, h'⟩)
            · exact .inl h
            · exact .inr ⟨h, .inr h'⟩
          · rintro (h | ⟨h, rfl | h'⟩)
            · exact .inl h
            · exact absurd rfl hq
            · exact .inr ⟨h, h'⟩

theorem addIncludes_error {fs : FS P N} (hs : fs.Sane) {libs : List P} (ns : List N) : ∀ {st : St P} {e : IncErr},
    addIncludes fs libs ns st = .error e → e ≠ .outOfFuel ∧ ∃ n ∈ ns, search fs n (st.loc :: libs) = none := by
  induction ns with
  | nil => intro st e h; simp [addIncludes] at h
  | cons n ns ih =>
    intro st e h
    simp only [addIncludes, addInclude] at h
    cases hg : search fs n (st.loc :: libs) with
    | none =>
      rw [hg] at h
      simp only [Except.error.injEq] at h
      subst h
      exact ⟨by decide, n, by simp, hg⟩
    | some g =>
      rw [hg] at h
      simp only [addEdge, search_canon hs hg] at h
      obtain ⟨h1, m, hm, h2⟩ := ih h
      refine ⟨h1, m, by simp [hm], ?_⟩
      have e1 : (if g ∈ st.black then st else { st with stack := g :: st.stack }).loc = st.loc := by
        split <;> rfl
      simpa only [e1] using h2

/-- What holds between two iterations of the main loop. -/
structure Inv (fs : FS P N) (libs : List P) (main : P) (st : St P) : Prop where
  nodup : st.black.Nodup
  reachB : ∀ f ∈ st.black, Relation.ReflTransGen (Inc fs libs) main f
  reachS : ∀ f ∈ st.stack, Relation.ReflTransGen (Inc fs libs) main f
  main : main ∈ st.black ∨ main ∈ st.stack
  closed : ∀ f ∈ st.black, ∀ g, Inc fs libs f g → g ∈ st.black ∨ g ∈ st.stack
  good : ∀ f ∈ st.black, Good fs libs f
  nodes : List.Forall₂ (fun f x => ∃ path file, load fs libs f = some (path, some file) ∧ x = (path, file.pragma))
    st.black st.nodes
  adj : ∀ q i, i ∈ st.adj q ↔ ∃ f, st.black[i]? = some f ∧ Inc fs libs f q
  gates : ∀ i, i ∈ st.gates ↔ ∃ f path file, st.black[i]? = some f ∧ load fs libs f = some (path, some file) ∧
    file.gates = true

theorem init_inv (fs : FS P N) (libs : List P) (main : P) : Inv fs libs main (init fs main) where
  nodup := List.nodup_nil
  reachB := by simp [init]
  reachS := by simp [init]; exact Relation.ReflTransGen.refl
  main := by simp [init]
  closed := by simp [init]
  good := by simp [init]
  nodes := List.Forall₂.nil
  adj := by simp [init]
  gates := by simp [init]

theorem getElem?_snoc {l : List P} {a f : P} {i : Nat} :
    (l ++ [a])[i]? = some f ↔ l[i]? = some f ∨ (i = l.length ∧ f = a) := by
  by_cases hi : i < l.length
  · rw [List.getElem?_append_left hi]
    constructor
    · exact .inl
    · rintro (h | ⟨h, _⟩)
      · exact h
      · omega
  · rw [List.getElem?_append_right (by omega)]
    have hn : l[i]? = none := List.getElem?_eq_none (by omega)
    rw [hn]
    simp only [reduceCtorEq, false_or]
    by_cases h0 : i = l.length
    · subst h0
      simp
      exact eq_comm
    · have : (i - l.length) ≠ 0 := by omega
      constructor
      · intro h
        rw [List.getElem?_eq_none (by simp; omega)] at h
        cases h
      · rintro ⟨h, _⟩
        exact absurd h h0

theorem step_inv {fs : FS P N} (hs : fs.Sane) {libs : List P} {main : P} {st st2 : St P}
    (hi : Inv fs libs main st) {crr : P} {rest : List P} (ht : takeNext st.black st.stack = some (crr, rest))
    {path : P} {file : File N} (hl : load fs libs crr = some (path, some file))
    (h2 : addIncludes fs libs file.includes (addNode { st with loc := fs.dir crr, black := st.black ++ [crr], stack := rest }
      path file.pragma file.gates) = .ok st2) :
    Inv fs libs main st2 ∧ st2.black = st.black ++ [crr] := by
  obtain ⟨t1, t2, t3, t4⟩ := takeNext_some ht
  obtain ⟨a1, a2, a3, a4, a5, a6, a7⟩ := addIncludes_ok hs _ h2
  simp only [addNode] at a1 a2 a3 a4 a5 a6 a7
  have hlen : st.nodes.length = st.black.length := hi.nodes.length_eq.symm
  have hrc : Relation.ReflTransGen (Inc fs libs) main crr := hi.reachS crr t2
  have hinc : ∀ g, Inc fs libs crr g ↔ ∃ n ∈ file.includes, search fs n (fs.dir crr :: libs) = some g := by
    intro g
    constructor
    · rintro ⟨p', f', hl', h⟩
      rw [hl] at hl'
      injection hl' with hl'
      injection hl' with _ hl'
      injection hl' with hl'
      subst hl'
      exact h
    · intro h
      exact ⟨path, file, hl, h⟩
  refine ⟨⟨?_, ?_, ?_, ?_, ?_, ?_, ?_, ?_, ?_⟩, a2⟩
  · rw [a2, List.nodup_append]
    refine ⟨hi.nodup, by simp, ?_⟩
    intro x hx y hy
    simp only [List.mem_singleton] at hy
    subst hy
    rintro rfl
    exact t1 hx
  · rw [a2]
    intro f hf
    rcases List.mem_append.1 hf with hf | hf
    · exact hi.reachB f hf
    · simp only [List.mem_singleton] at hf
      subst hf
      exact hrc
  · intro f hf
    rcases (a6 f).1 hf with hf | ⟨_, hf⟩
    · exact hi.reachS f (t3 f hf)
    · exact hrc.tail ((hinc f).2 hf)
  · rw [a2]
    rcases hi.main with h | h
    · exact .inl (by simp [h])
    · rcases t4 main h with h | h | h
      · exact .inl (by simp [h])
      · exact .inl (by simp [h])
      · exact .inr ((a6 main).2 (.inl h))
  · rw [a2]
    intro f hf g hg
    by_cases hgb : g ∈ st.black ++ [crr]
    · exact .inl hgb
    · right
      rcases List.mem_append.1 hf with hf | hf
      · rcases hi.closed f hf g hg with h | h
        · exact absurd (by simp [h]) hgb
        · rcases t4 g h with h | h | h
          · exact absurd (by simp [h]) hgb
          · exact absurd (by simp [h]) hgb
          · exact (a6 g).2 (.inl h)
      · simp only [List.mem_singleton] at hf
        subst hf
        exact (a6 g).2 (.inr ⟨hgb, (hinc g).1 hg⟩)
  · rw [a2]
    intro f hf
    rcases List.mem_append.1 hf with hf | hf
    · exact hi.good f hf
    · simp only [List.mem_singleton] at hf
      subst hf
      exact ⟨path, file, hl, a5⟩
  · rw [a2, a3]
    exact List.rel_append hi.nodes (List.Forall₂.cons ⟨path, file, hl, rfl⟩ List.Forall₂.nil)
  · intro q i
    rw [a7, hi.adj, a2]
    simp only [List.length_append, List.length_singleton, Nat.add_sub_cancel, hlen, getElem?_snoc]
    constructor
    · rintro (⟨f, h1, h2⟩ | ⟨h1, h2⟩)
      · exact ⟨f, .inl h1, h2⟩
      · exact ⟨crr, .inr ⟨h1, rfl⟩, (hinc q).2 h2⟩
    · rintro ⟨f, h1 | ⟨h1, h0⟩, h3⟩
      · exact .inl ⟨f, h1, h3⟩
      · subst h0
        exact .inr ⟨h1, (hinc q).1 h3⟩
  · intro i
    rw [a4, a2]
    have hold := hi.gates i
    simp only [getElem?_snoc]
    by_cases hg : file.gates = true
    · rw [if_pos hg, List.mem_append, hold]
      simp only [List.mem_singleton, hlen]
      constructor
      · rintro (⟨f, p', f', h1, h2⟩ | h)
        · exact ⟨f, p', f', .inl h1, h2⟩
        · exact ⟨crr, path, file, .inr ⟨h, rfl⟩, hl, hg⟩
      · rintro ⟨f, p', f', h1 | ⟨h1, rfl⟩, h2⟩
        · exact .inl ⟨f, p', f', h1, h2⟩
        · exact .inr h1
    · rw [if_neg hg, hold]
      constructor
      · rintro ⟨f, p', f', h1, h2⟩
        exact ⟨f, p', f', .inl h1, h2⟩
      · rintro ⟨f, p', f', h1 | ⟨h1, rfl⟩, h2, h3⟩
        · exact ⟨f, p', f', h1, h2, h3⟩
        · rw [hl] at h2
          injection h2 with h2
          injection h2 with _ h2
          injection h2 with h2
          subst h2
          exact absurd h3 hg

theorem loop_inv {fs : FS P N} (hs : fs.Sane) {libs : List P} {main : P} (fuel : Nat) : ∀ {st st' : St P},
    Inv fs libs main st → loop fs libs fuel st = .ok st' → Inv fs libs main st' ∧ st'.stack = [] := by
  induction fuel with
  | zero => intro st st' _ h; simp [loop] at h
  | succ fuel ih =>
    intro st st' hi h
    simp only [loop] at h
    split at h
    · rename_i hn
      simp only [Except.ok.injEq] at h
      subst h
      have hsub := takeNext_none hn
      refine ⟨⟨hi.nodup, hi.reachB, by simp, ?_, ?_, hi.good, hi.nodes, hi.adj, hi.gates⟩, rfl⟩
      · exact .inl (hi.main.elim id (hsub main))
      · intro f hf g hg
        exact .inl ((hi.closed f hf g hg).elim id (hsub g))
    · rename_i crr rest ht
      split at h
      · cases h
      · cases h
      · rename_i path file hl
        split at h
        · cases h
        · rename_i st2 h2
          exact ih (step_inv hs hi ht hl h2).1 h

theorem loop_error {fs : FS P N} (hs : fs.Sane) {libs : List P} {main : P} (fuel : Nat) : ∀ {st : St P} {e : IncErr},
    Inv fs libs main st → loop fs libs fuel st = .error e → e ≠ .outOfFuel →
    ∃ f, Relation.ReflTransGen (Inc fs libs) main f ∧ ¬ Good fs libs f := by
  induction fuel with
  | zero =>
    intro st e _ h he
    simp only [loop, Except.error.injEq] at h
    exact absurd h.symm he
  | succ fuel ih =>
    intro st e hi h he
    simp only [loop] at h
    split at h
    · cases h
    · rename_i crr rest ht
      obtain ⟨_, t2, _, _⟩ := takeNext_some ht
      split at h
      · rename_i hl
        refine ⟨crr, hi.reachS crr t2, ?_⟩
        rintro ⟨_, _, h', _⟩
        rw [hl] at h'
        cases h'
      · rename_i hl
        refine ⟨crr, hi.reachS crr t2, ?_⟩
        rintro ⟨_, _, h', _⟩
        rw [hl] at h'
        cases h'
      · rename_i path file hl
        split at h
        · rename_i e' h2
          obtain ⟨_, n, hn, hnone⟩ := addIncludes_error hs _ h2
          refine ⟨crr, hi.reachS crr t2, ?_⟩
          rintro ⟨p', f', h', hall⟩
          rw [hl] at h'
          injection h' with h'
          injection h' with _ h'
          injection h' with h'
          subst h'
          obtain ⟨g, hg⟩ := hall n hn
          simp only [addNode] at hnone
          rw [hnone] at hg
          cases hg
        · rename_i st2 h2
          exact ih (step_inv hs hi ht hl h2).1 h he

theorem loop_fuel {fs : FS P N} (hs : fs.Sane) {libs : List P} {main : P} {U : List P}
    (hU : ∀ f, Relation.ReflTransGen (Inc fs libs) main f → f ∈ U) (fuel : Nat) : ∀ {st : St P},
    Inv fs libs main st → U.length < fuel + st.black.length → loop fs libs fuel st ≠ .error .outOfFuel := by
  have hle : ∀ st : St P, Inv fs libs main st → st.black.length ≤ U.length := by
    intro st hi
    exact (hi.nodup.subperm fun f hf => hU f (hi.reachB f hf)).length_le
  induction fuel with
  | zero =>
    intro st hi h
    have := hle st hi
    omega
  | succ fuel ih =>
    intro st hi h hc
    simp only [loop] at hc
    split at hc
    · cases hc
    · rename_i crr rest ht
      split at hc
      · cases hc
      · cases hc
      · rename_i path file hl
        split at hc
        · rename_i e' h2
          injection hc with hc
          exact (addIncludes_error hs _ h2).1 hc
        · rename_i st2 h2
          obtain ⟨g1, g2⟩ := step_inv hs hi ht hl h2
          refine ih g1 ?_ hc
          rw [g2]
          simp
          omega

/-! ### The pragma check -/

/-- Edges of the graph as walked by the check: from a file to one that includes it. -/
def Edge (st : St P) (a b : Nat) : Prop :=
  ∃ x, st.nodes[a]? = some x ∧ b ∈ st.adj x.1

theorem travEdges_ok {rec : Nat → List (Nat × Nat) → Except TravErr (List (List P))} {frm : Nat}
    {trav : List (Nat × Nat)} : ∀ {bs : List Nat} {x : List (List P)}, travEdges rec frm trav bs = .ok x →
    (x ≠ [] → ∃ b ∈ bs, (frm, b) ∉ trav ∧ ∃ y, rec b ((frm, b) :: trav) = .ok y ∧ y ≠ []) ∧
    (∀ b ∈ bs, (frm, b) ∉ trav → ∃ y, rec b ((frm, b) :: trav) = .ok y ∧ (y ≠ [] → x ≠ [])) := by
  intro bs
  induction bs with
  | nil =>
    intro x h
    simp only [travEdges, Except.ok.injEq] at h
    subst h
    simp
  | cons b bs ih =>
    intro x h
    simp only [travEdges] at h
    split at h
    · rename_i hm
      obtain ⟨i1, i2⟩ := ih h
      constructor
      · intro hx
        obtain ⟨c, hc, r⟩ := i1 hx
        exact ⟨c, by simp [hc], r⟩
      · intro c hc hn
        rcases List.mem_cons.1 hc with rfl | hc
        · exact absurd hm hn
        · exact i2 c hc hn
    · rename_i hm
      split at h
      · cases h
      · rename_i y hy
        split at h
        · cases h
        · rename_i z hz
          injection h with h
          subst h
          obtain ⟨i1, i2⟩ := ih hz
          constructor
          · intro hx
            by_cases hy0 : y = []
            · obtain ⟨c, hc, r⟩ := i1 (by simpa [hy0] using hx)
              exact ⟨c, by simp [hc], r⟩
            · exact ⟨b, by simp, hm, y, hy, hy0⟩
          · intro c hc hn
            rcases List.mem_cons.1 hc with rfl | hc
            · exact ⟨y, hy, fun h => by simp [h]⟩
            · obtain ⟨u, hu, h'⟩ := i2 c hc hn
              exact ⟨u, hu, fun h => by simp [h' h]⟩

theorem traverse_sound {st : St P} (fuel : Nat) : ∀ {frm : Nat} {path : List P} {trav : List (Nat × Nat)}
    {x : List (List P)}, traverse st fuel frm path trav = .ok x → x ≠ [] →
    ∃ b p, Relation.ReflTransGen (Edge st) frm b ∧ st.nodes[b]? = some (p, false) := by
  induction fuel with
  | zero => intro frm path trav x h; simp [traverse] at h
  | succ fuel ih =>
    intro frm path trav x h hx
    simp only [traverse] at h
    split at h
    · cases h
    · rename_i fromPath pragma hn
      split at h
      · cases h
      · rename_i rest hr
        injection h with h
        cases pragma with
        | false => exact ⟨frm, fromPath, .refl, hn⟩
        | true =>
          simp only [if_true, List.nil_append] at h
          subst h
          obtain ⟨b, hb, _, y, hy, hy0⟩ := (travEdges_ok hr).1 hx
          obtain ⟨c, p, h1, h2⟩ := ih hy hy0
          exact ⟨c, p, .head ⟨_, hn, hb⟩ h1, h2⟩

/-- A path can be arranged to leave its start at most once. -/
theorem leave_once {R : Nat → Nat → Prop} {a j : Nat} (h : Relation.ReflTransGen R a j) :
    a = j ∨ ∃ b, R a b ∧ Relation.ReflTransGen (fun x y => R x y ∧ x ≠ a) b j := by
  have key : ∀ x, Relation.ReflTransGen R x j → Relation.ReflTransGen (fun x y => R x y ∧ x ≠ a) x j ∨
      ∃ b, R a b ∧ Relation.ReflTransGen (fun x y => R x y ∧ x ≠ a) b j := by
    intro x hx
    induction hx using Relation.ReflTransGen.head_induction_on with
    | refl => exact .inl .refl
    | @head x y hxy _ ih =>
      rcases ih with ih | ih
      · by_cases hxa : x = a
        · subst hxa
          exact .inr ⟨y, hxy, ih⟩
        · exact .inl (.head ⟨hxy, hxa⟩ ih)
      · exact .inr ih
  rcases key a h with h | h
  · rcases Relation.ReflTransGen.cases_head h with h | ⟨c, h, _⟩
    · exact .inl h
    · exact absurd rfl h.2
  · exact .inr h

theorem traverse_complete {st : St P} (fuel : Nat) : ∀ {frm : Nat} {path : List P} {trav : List (Nat × Nat)}
    {x : List (List P)} {b : Nat} {p : P}, traverse st fuel frm path trav = .ok x →
    Relation.ReflTransGen (fun i k => Edge st i k ∧ (i, k) ∉ trav) frm b → st.nodes[b]? = some (p, false) →
    x ≠ [] := by
  induction fuel with
  | zero => intro frm path trav x b p h; simp [traverse] at h
  | succ fuel ih =>
    intro frm path trav x b p h hreach hb
    simp only [traverse] at h
    split at h
    · cases h
    · rename_i fromPath pragma hn
      split at h
      · cases h
      · rename_i rest hr
        injection h with h
        rcases leave_once hreach with rfl | ⟨c, ⟨hc, hct⟩, hrest⟩
        · rw [hn] at hb
          injection hb with hb
          injection hb with _ hb
          subst hb
          subst h
          simp
        · obtain ⟨x', hx', hadj⟩ := hc
          rw [hn] at hx'
          injection hx' with hx'
          subst hx'
          obtain ⟨y, hy, himp⟩ := (travEdges_ok hr).2 c hadj hct
          have hy0 : y ≠ [] := by
            refine ih hy ?_ hb
            refine Relation.ReflTransGen.mono ?_ _ _ hrest
            rintro i k ⟨⟨h1, h2⟩, h3⟩
            refine ⟨h1, ?_⟩
            simp only [List.mem_cons, Prod.mk.injEq, not_or]
            exact ⟨fun h => h3 h.1, h2⟩
          have := himp hy0
          subst h
          simp [this]

theorem traverse_ok {st : St P} (hedge : ∀ q, ∀ i ∈ st.adj q, i < st.nodes.length) {EL : List (Nat × Nat)}
    (hEL : ∀ a b, Edge st a b → (a, b) ∈ EL) (fuel : Nat) : ∀ {frm : Nat} {path : List P} {trav : List (Nat × Nat)},
    frm < st.nodes.length → trav.Nodup → (∀ e ∈ trav, e ∈ EL) → EL.length < fuel + trav.length →
    ∃ x, traverse st fuel frm path trav = .ok x := by
  induction fuel with
  | zero =>
    intro frm path trav _ hnd hsub hlt
    have := (hnd.subperm hsub).length_le
    omega
  | succ fuel ih =>
    intro frm path trav hf hnd hsub hlt
    obtain ⟨n, hn⟩ : ∃ n, st.nodes[frm]? = some n := ⟨_, List.getElem?_eq_getElem hf⟩
    obtain ⟨fromPath, pragma⟩ := n
    simp only [traverse, hn]
    have hbs : ∀ bs : List Nat, (∀ b ∈ bs, b ∈ st.adj fromPath) → ∃ x, travEdges
        (fun b t => traverse st fuel b (path ++ [fromPath]) t) frm trav bs = .ok x := by
      intro bs
      induction bs with
      | nil => intro _; exact ⟨[], rfl⟩
      | cons b bs ihb =>
        intro hbs
        obtain ⟨z, hz⟩ := ihb fun c hc => hbs c (by simp [hc])
        simp only [travEdges]
        by_cases hm : (frm, b) ∈ trav
        · rw [if_pos hm]; exact ⟨z, hz⟩
        · rw [if_neg hm]
          have hb : b ∈ st.adj fromPath := hbs b (by simp)
          obtain ⟨y, hy⟩ := ih (frm := b) (path := path ++ [fromPath]) (trav := (frm, b) :: trav) (hedge _ b hb)
            (List.nodup_cons.2 ⟨hm, hnd⟩) (by
              intro e he
              rcases List.mem_cons.1 he with rfl | he
              · exact hEL _ _ ⟨_, hn, hb⟩
              · exact hsub e he) (by simp; omega)
          rw [hy, hz]
          exact ⟨y ++ z, rfl⟩
    obtain ⟨x, hx⟩ := hbs (st.adj fromPath) fun _ h => h
    rw [hx]
    exact ⟨_, rfl⟩

end Verif.Include
