import Verif.ExecSim

/-!
What the assignment states of the signals say about the assignments made.
-/

set_option linter.unusedSectionVars false
set_option linter.unusedSimpArgs false

namespace Verif.Exec

open Verif.ModArith Verif.Algebra

abbrev Conds := List (Nat × Bool)

/-- Two condition lists ask for different outcomes of the same condition. -/
def Excl (e f : Conds) : Prop := ∃ q k b, q ++ [(k, b)] <+: e ∧ q ++ [(k, !b)] <+: f

/-- The first list is in the first branch where the second one is in the second branch. -/
def Earlier (e r : Conds) : Prop := ∃ q k, q ++ [(k, true)] <+: e ∧ q ++ [(k, false)] <+: r

/-- Where two lists part at the same condition, the first one is in the first branch. -/
def Before (r cs : Conds) : Prop :=
  ∀ q x y, q ++ [x] <+: r → q ++ [y] <+: cs → x ≠ y → x.1 = y.1 → x.2 = true

theorem excl_inactive {e f : Conds} (h : Excl e f) (β : Nat → Bool) (he : act β e = true)
    (hf : act β f = true) : False := by
  obtain ⟨q, k, b, h1, h2⟩ := h
  have a := act_iff.1 he _ (mem_of_prefix h1)
  have c := act_iff.1 hf _ (mem_of_prefix h2)
  simp only at a c
  rw [a] at c
  cases b <;> cases c

theorem Earlier.excl {e r : Conds} (h : Earlier e r) : Excl e r := by
  obtain ⟨q, k, h1, h2⟩ := h
  exact ⟨q, k, true, h1, h2⟩

theorem firstDiff_some {a b : Conds} {i : Nat} {x y : Nat × Bool}
    (h : firstDiff a b = some (i, x, y)) :
    ∃ q, q.length = i ∧ q ++ [x] <+: a ∧ q ++ [y] <+: b ∧ x ≠ y := by
  induction a generalizing b i with
  | nil => simp [firstDiff] at h
  | cons u us ih =>
    cases b with
    | nil => simp [firstDiff] at h
    | cons v vs =>
      rw [firstDiff] at h
      split at h
      · rename_i huv
        subst huv
        cases hd : firstDiff us vs with
        | none => rw [hd] at h; cases h
        | some d =>
          obtain ⟨j, x', y'⟩ := d
          rw [hd] at h
          simp only [Option.map_some, Option.some.injEq, Prod.mk.injEq] at h
          obtain ⟨rfl, rfl, rfl⟩ := h
          obtain ⟨q, h1, h2, h3, h4⟩ := ih hd
          exact ⟨u :: q, by simp [h1], by simpa using h2, by simpa using h3, h4⟩
      · rename_i huv
        simp only [Option.some.injEq, Prod.mk.injEq] at h
        obtain ⟨rfl, rfl, rfl⟩ := h
        exact ⟨[], rfl, by simp, by simp, huv⟩

theorem prefix_cmp {α : Type} {q1 q2 r : List α} {x y : α} (h1 : q1 ++ [x] <+: r) (h2 : q2 ++ [y] <+: r) :
    q1 ++ [x] <+: q2 ∨ (q1 = q2 ∧ x = y) ∨ q2 ++ [y] <+: q1 := by
  rcases lt_trichotomy q1.length q2.length with h | h | h
  · left
    exact List.prefix_of_prefix_length_le h1 ((List.prefix_append _ _).trans h2) (by simp; omega)
  · right; left
    have := List.prefix_of_prefix_length_le h1 h2 (by simp; omega)
    have := this.eq_of_length (by simp; omega)
    simpa using this
  · right; right
    exact List.prefix_of_prefix_length_le h2 ((List.prefix_append _ _).trans h1) (by simp; omega)

theorem Before.refl_prefix {r cs : Conds} (h : r <+: cs) : Before r cs := by
  intro q x y hx hy hne _
  have := prefix_cmp (hx.trans h) hy
  rcases this with h | ⟨_, h⟩ | h
  · have := h.length_le; simp at this
  · exact absurd h hne
  · have := h.length_le; simp at this

theorem Before.push {r cs : Conds} {n : Nat} {b : Bool} (hr : Below n r) (h : Before r cs) :
    Before r (cs ++ [(n, b)]) := by
  intro q x y hx hy hne hid
  rcases lt_or_ge q.length cs.length with hl | hl
  · exact h q x y hx (List.prefix_of_prefix_length_le hy (List.prefix_append _ _) (by simp; omega)) hne hid
  · have hlen := hy.length_le
    simp only [List.length_append, List.length_singleton] at hlen
    have := hy.eq_of_length (by simp; omega)
    have hyy : y = (n, b) := (List.append_inj' this rfl).2 |> List.singleton_inj.1
    have := hr x (mem_of_prefix hx)
    rw [hid, hyy] at this
    simp at this

theorem Before.pop {r cs : Conds} (h : Before r cs) : Before r cs.dropLast :=
  fun q x y hx hy => h q x y hx (hy.trans (List.dropLast_prefix _))

theorem Before.flip {r cs : Conds} {last : Nat × Bool} (hl : cs.getLast? = some last) (h : Before r cs) :
    Before r (cs.dropLast ++ [(last.1, false)]) := by
  intro q x y hx hy hne hid
  have hcs : cs = cs.dropLast ++ [last] := by
    obtain ⟨ys, hys⟩ := List.getLast?_eq_some_iff.1 hl
    rw [hys]; simp
  rcases lt_or_ge q.length cs.dropLast.length with hlt | hge
  · exact h q x y hx ((List.prefix_of_prefix_length_le hy (List.prefix_append _ _) (by simp; simp at hlt; omega)).trans
      (List.dropLast_prefix _)) hne hid
  · have hlen := hy.length_le
    simp only [List.length_append, List.length_singleton] at hlen
    have he := hy.eq_of_length (by simp; simp at hge hlen; omega)
    obtain ⟨hq, hyy⟩ := List.append_inj' he rfl
    have hyy := List.singleton_inj.1 hyy
    subst hyy
    -- the entry of `r` differs from the second branch, so it is the first branch
    cases hx2 : x.2 with
    | true => rfl
    | false => exact absurd (Prod.ext hid hx2) hne

/-- What the state of a signal says about its assignments so far. -/
def CellInv (cs : Conds) (n : Nat) (E : List Conds) (inp : Prop) : AState → Prop
  | .noAssigned => E = [] ∧ ¬ inp
  | .assigned => E.Pairwise Excl ∧ ((inp ∧ E = []) ∨ (¬ inp ∧ ∀ β, ∃ e ∈ E, act β e = true))
  | .mightAssigned r => E.Pairwise Excl ∧ ¬ inp ∧ Below n r ∧ Before r cs ∧
      (∀ e ∈ E, r <+: e ∨ Earlier e r) ∧ ∀ β, act β r = true → ∃ e ∈ E, act β e = true

theorem CellInv.change {cs cs' : Conds} {n n' : Nat} {E : List Conds} {inp : Prop} {a : AState}
    (hn : n ≤ n') (hb : ∀ r, Below n r → Before r cs → Before r cs') (h : CellInv cs n E inp a) :
    CellInv cs' n' E inp a := by
  cases a with
  | noAssigned => exact h
  | assigned => exact h
  | mightAssigned r =>
    obtain ⟨h1, h2, h3, h4, h5, h6⟩ := h
    exact ⟨h1, h2, h3.mono hn, hb r h3 h4, h5, h6⟩

theorem excl_of_split {e q cs : Conds} {k : Nat} {b : Bool} (h1 : q ++ [(k, b)] <+: e)
    (h2 : q ++ [(k, !b)] <+: cs) : Excl e cs := ⟨q, k, b, h1, h2⟩

/-- The treatment of one cell keeps the invariant. -/
theorem assignCell_inv {cs : Conds} {n : Nat} {E : List Conds} {inp : Prop} {a a' : AState}
    (hcs : Below n cs) (h : CellInv cs n E inp a) (ha : assignCell a (pendingState cs) = .ok a') :
    CellInv cs n (E ++ [cs]) inp a' := by
  unfold assignCell at ha
  split at ha
  · obtain ⟨rfl, hinp⟩ := h
    injection ha with ha
    subst ha
    unfold pendingState
    split
    · rename_i hnil
      rw [List.isEmpty_iff] at hnil
      subst hnil
      exact ⟨by simp, .inr ⟨hinp, fun β => ⟨[], by simp, by simp [act]⟩⟩⟩
    · exact ⟨by simp, hinp, hcs, Before.refl_prefix (List.prefix_refl _),
        fun e he => .inl (by have : e = cs := by simpa using he
                             rw [this]),
        fun β hβ => ⟨cs, by simp, hβ⟩⟩
  · cases ha
  · rename_i r
    obtain ⟨h1, hinp, h3, h4, h5, h6⟩ := h
    unfold pendingState at ha
    split at ha
    · cases ha
    · cases ha
    · rename_i condNew hnew
      have hcn : condNew = cs := by
        split at hnew
        · cases hnew
        · injection hnew with hnew; exact hnew.symm
      subst hcn
      split at ha
      · cases ha
      · rename_i i x y hd
        obtain ⟨q, hq, hx, hy, hne⟩ := firstDiff_some hd
        split at ha
        · rename_i hid
          have hx2 := h4 q x y hx hy hne hid
          have hy2 : y.2 = false := by
            cases hy2 : y.2 with
            | false => rfl
            | true => exact absurd (Prod.ext hid (hx2.trans hy2.symm)) hne
          obtain ⟨k, bx⟩ := x
          obtain ⟨k', b'⟩ := y
          simp only at hid hx2 hy2
          subst hid hx2 hy2
          -- every earlier assignment lies in the first branch at a common condition
          have hear : ∀ e ∈ E, Earlier e condNew := by
            intro e he
            rcases h5 e he with hre | ⟨q0, k0, g1, g2⟩
            · exact ⟨q, k, hx.trans hre, hy⟩
            · rcases prefix_cmp g2 hx with g | ⟨_, g⟩ | g
              · exact ⟨q0, k0, g1, g.trans ((List.prefix_append _ _).trans hy)⟩
              · cases g
              · exact ⟨q, k, g.trans ((List.prefix_append _ _).trans g1), hy⟩
          have hpw : (E ++ [condNew]).Pairwise Excl := by
            rw [List.pairwise_append]
            refine ⟨h1, by simp, ?_⟩
            intro e he f hf
            rw [List.mem_singleton.1 hf]
            exact (hear e he).excl
          split at ha
          · rename_i hlast
            obtain ⟨hi, hlen⟩ := hlast
            have hpos : 0 < condNew.length := by
              have := hy.length_le
              simp at this; omega
            have hmin : min r.length condNew.length = condNew.length := by omega
            have hqlen : q.length + 1 = condNew.length := by omega
            have hcn : q ++ [(k, false)] = condNew := hy.eq_of_length (by simp; omega)
            have hr : q ++ [(k, true)] = r := hx.eq_of_length (by simp; omega)
            have hcover : ∀ β, act β q = true → ∃ e ∈ E ++ [condNew], act β e = true := by
              intro β hβ
              cases hk : β k with
              | true =>
                obtain ⟨e, he, hae⟩ := h6 β (by
                  rw [← hr, act_iff]
                  intro z hz
                  rcases List.mem_append.1 hz with hz | hz
                  · exact act_iff.1 hβ z hz
                  · rw [List.mem_singleton.1 hz]; exact hk)
                exact ⟨e, List.mem_append_left _ he, hae⟩
              | false =>
                refine ⟨condNew, by simp, ?_⟩
                rw [← hcn, act_iff]
                intro z hz
                rcases List.mem_append.1 hz with hz | hz
                · exact act_iff.1 hβ z hz
                · rw [List.mem_singleton.1 hz]; exact hk
            split at ha
            · rename_i hone
              injection ha with ha
              subst ha
              have hq0 : q = [] := List.length_eq_zero_iff.1 (by omega)
              subst hq0
              exact ⟨hpw, .inr ⟨hinp, fun β => hcover β (by simp [act])⟩⟩
            · injection ha with ha
              have htake : condNew.take (min r.length condNew.length - 1) = q := by
                rw [hmin, ← hcn]; simp
              rw [htake] at ha
              subst ha
              refine ⟨hpw, hinp, ?_, Before.refl_prefix ((List.prefix_append _ _).trans hy), ?_, hcover⟩
              · intro z hz
                exact hcs z (by rw [← hcn]; exact List.mem_append_left _ hz)
              · intro e he
                rcases List.mem_append.1 he with he | he
                · rcases h5 e he with hre | ⟨q0, k0, g1, g2⟩
                  · exact .inl ((List.prefix_append _ _).trans (hx.trans hre))
                  · rcases prefix_cmp g2 hx with g | ⟨_, g⟩ | g
                    · exact .inr ⟨q0, k0, g1, g⟩
                    · cases g
                    · -- impossible: `r` ends with the entry at `q`
                      exfalso
                      have e1 := g.length_le
                      have e2 := g2.length_le
                      rw [← hr] at e2
                      simp at e1 e2
                      omega
                · rw [List.mem_singleton.1 he]
                  exact .inl ((List.prefix_append _ _).trans hy)
          · injection ha with ha
            subst ha
            refine ⟨hpw, hinp, hcs, Before.refl_prefix (List.prefix_refl _), ?_, ?_⟩
            · intro e he
              rcases List.mem_append.1 he with he | he
              · exact .inr (hear e he)
              · rw [List.mem_singleton.1 he]; exact .inl (List.prefix_refl _)
            · exact fun β hβ => ⟨condNew, by simp, hβ⟩
        · cases ha

/-- The condition lists under which a signal was assigned. -/
def events (s : Nat) (log : List (Nat × Conds)) : List Conds := (log.filter fun e => e.1 = s).map (·.2)

def LogInv (inputs : List Nat) (st : St) : Prop :=
  Below st.counter st.conds ∧
    ∀ s, CellInv st.conds st.counter (events s st.log) (s ∈ inputs) (st.sigs s)

theorem start_inv (inputs : List Nat) : LogInv inputs (start inputs) := by
  refine ⟨by intro x hx; simp [start] at hx, fun s => ?_⟩
  simp only [start]
  split
  · rename_i h
    exact ⟨by simp [events], .inl ⟨h, by simp [events]⟩⟩
  · rename_i h
    exact ⟨by simp [events], h⟩

theorem kept_inv (inputs : List Nat) : Kept fun st st' => LogInv inputs st → LogInv inputs st' where
  refl _ := id
  trans h1 h2 := h2 ∘ h1
  enter st h := ⟨below_push h.1 _, fun s => (h.2 s).change (Nat.le_succ _) fun _ => Before.push⟩
  flip st last hl h := ⟨(kept_facts.flip st last hl).below h.1,
    fun s => (h.2 s).change (le_refl _) fun _ _ => Before.flip hl⟩
  leave old st h := ⟨below_dropLast h.1, fun s => (h.2 s).change (le_refl _) fun _ _ => Before.pop⟩
  startLoop st h := ⟨below_push h.1 _, fun s => (h.2 s).change (Nat.le_succ _) fun _ => Before.push⟩
  endIteration st h := ⟨below_dropLast h.1, fun s => (h.2 s).change (le_refl _) fun _ _ => Before.pop⟩
  mark step st h := by
    obtain ⟨_, _, m3, m4, m5, _, m7⟩ := markUnstable_fields step st
    unfold LogInv
    rw [m3, m4, m5, m7]
    exact h
  env _ _ h := h
  cons _ _ h := h
  assign st s a ha h := by
    refine ⟨h.1, fun t => ?_⟩
    by_cases hts : t = s
    · subst hts
      simp only [if_true]
      have : events t (st.log ++ [(t, st.conds)]) = events t st.log ++ [st.conds] := by
        simp [events, List.filter_append]
      rw [this]
      exact assignCell_inv h.1 (h.2 t) ha
    · simp only [if_neg hts]
      have : events t (st.log ++ [(s, st.conds)]) = events t st.log := by
        simp [events, List.filter_append, Ne.symm hts]
      rw [this]
      exact h.2 t

theorem exec_inv {fuel : Nat} {field : Int} {s : Stmt} {inputs : List Nat} {st st' : St} {r : Option V}
    (h : exec fuel field s st = .ok (st', r)) (hi : LogInv inputs st) : LogInv inputs st' :=
  (kept_inv inputs).exec fuel field s st st' r h hi

/-- The signals assigned on a path. -/
def onPath (β : Nat → Bool) (log : List (Nat × Conds)) : List Nat :=
  (log.filter fun e => act β e.2).map (·.1)

theorem mem_onPath {β : Nat → Bool} {log : List (Nat × Conds)} {s : Nat} :
    s ∈ onPath β log ↔ ∃ e ∈ events s log, act β e = true := by
  simp only [onPath, events, List.mem_map, List.mem_filter, decide_eq_true_eq]
  constructor
  · rintro ⟨⟨t, e⟩, ⟨h1, h2⟩, rfl⟩
    exact ⟨e, ⟨(t, e), ⟨h1, rfl⟩, rfl⟩, h2⟩
  · rintro ⟨e, ⟨⟨t, e'⟩, ⟨h1, rfl⟩, rfl⟩, h2⟩
    exact ⟨(t, e'), ⟨h1, h2⟩, rfl⟩

theorem onPath_nodup {β : Nat → Bool} {log : List (Nat × Conds)}
    (h : ∀ s, (events s log).Pairwise Excl) : (onPath β log).Nodup := by
  rw [List.nodup_iff_pairwise_ne, onPath, List.pairwise_map]
  have hlog : log.Pairwise fun a b => a.1 = b.1 → Excl a.2 b.2 := by
    rw [List.pairwise_iff_getElem]
    intro i j hi hj hij heq
    have hs := h log[i].1
    rw [events, List.pairwise_map, List.pairwise_filter, List.pairwise_iff_getElem] at hs
    exact hs i j hi hj hij (by simp) (by simpa using heq.symm)
  rw [List.pairwise_filter]
  refine hlog.imp ?_
  intro a b hab ha hb heq
  exact excl_inactive (hab heq) β ha hb

theorem LogInv.pairwise {inputs : List Nat} {st : St} (h : LogInv inputs st) (s : Nat) :
    (events s st.log).Pairwise Excl := by
  have := h.2 s
  cases ha : st.sigs s with
  | noAssigned => rw [ha] at this; rw [this.1]; exact .nil
  | assigned => rw [ha] at this; exact this.1
  | mightAssigned r => rw [ha] at this; exact this.1

end Verif.Exec
