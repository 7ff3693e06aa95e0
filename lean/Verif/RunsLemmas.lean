import Verif.Runs
import Mathlib.Data.List.Nodup
import Mathlib.Tactic.Linarith

/-! Lemmas about the model of the running of sub-components. -/

set_option linter.unusedSimpArgs false
set_option linter.unusedVariables false

namespace Verif.Runs

/-- Some assignment of the list is to `c`. -/
def Has (c : Comp) (t : List Ev) : Prop := ∃ e ∈ t, e.comp = c

theorem Has.append {c : Comp} {a b : List Ev} : Has c (a ++ b) ↔ Has c a ∨ Has c b := by
  simp only [Has, List.mem_append]
  constructor
  · rintro ⟨e, h | h, hc⟩
    · exact Or.inl ⟨e, h, hc⟩
    · exact Or.inr ⟨e, h, hc⟩
  · rintro (⟨e, h, hc⟩ | ⟨e, h, hc⟩)
    · exact ⟨e, Or.inl h, hc⟩
    · exact ⟨e, Or.inr h, hc⟩

theorem Has.cons {c : Comp} {e : Ev} {b : List Ev} : Has c (e :: b) ↔ e.comp = c ∨ Has c b := by
  simp [Has]

theorem not_has_nil {c : Comp} : ¬ Has c [] := by simp [Has]

/-- All assignments to `c` are counted; those without check are followed by another one (or `lv` holds). -/
def A (lv : Prop) (c : Comp) : List Ev → Prop
  | [] => True
  | e :: es => (e.comp = c → e.info = ⟨.unknown, true⟩ ∨ (e.info = ⟨.noLast, true⟩ ∧ (Has c es ∨ lv))) ∧ A lv c es

theorem A.append {lv : Prop} {c : Comp} : ∀ {a b : List Ev}, A (Has c b ∨ lv) c a → A lv c b → A lv c (a ++ b)
  | [], b, _, hb => hb
  | e :: a, b, ha, hb => by
    refine ⟨fun he => ?_, A.append ha.2 hb⟩
    rcases ha.1 he with h | ⟨h, h'⟩
    · exact Or.inl h
    · refine Or.inr ⟨h, ?_⟩
      show Has c (a ++ b) ∨ lv
      rw [Has.append]
      tauto

theorem A.mono {p q : Prop} {c : Comp} (hpq : p → q) : ∀ {a : List Ev}, A p c a → A q c a
  | [], _ => trivial
  | e :: a, h => by
    refine ⟨fun he => ?_, A.mono hpq h.2⟩
    rcases h.1 he with h | ⟨h, h'⟩
    · exact Or.inl h
    · exact Or.inr ⟨h, by tauto⟩

/-- The last assignment to `c` is marked and uncounted, the others do not run the component unless the counter says so. -/
def B (c : Comp) : List Ev → Prop
  | [] => False
  | e :: es => (e.comp = c ∧ e.info = ⟨.last, false⟩ ∧ ¬ Has c es) ∨
      ((e.comp = c → e.info.status = .noLast ∨ e.info = ⟨.unknown, true⟩) ∧ B c es)

theorem B.has {c : Comp} : ∀ {t : List Ev}, B c t → Has c t
  | [], h => h.elim
  | e :: es, h => by
    rw [Has.cons]
    rcases h with h | h
    · exact Or.inl h.1
    · exact Or.inr (B.has h.2)

theorem B.append {c : Comp} : ∀ {a b : List Ev},
    (∀ e ∈ a, e.comp = c → e.info.status = .noLast ∨ e.info = ⟨.unknown, true⟩) → B c b → B c (a ++ b)
  | [], b, _, hb => hb
  | e :: a, b, ha, hb =>
    Or.inr ⟨ha e (List.mem_cons_self), B.append (fun e he => ha e (List.mem_cons_of_mem _ he)) hb⟩

/-! ## The programs on well marked executions -/

/-- Number of elements assigned to `c`. -/
def total (c : Comp) : List Ev → Nat
  | [] => 0
  | e :: es => (if e.comp = c then e.amount else 0) + total c es

theorem total_pos {c : Comp} : ∀ {t : List Ev}, (∀ e ∈ t, 0 < e.amount) → (0 < total c t ↔ Has c t)
  | [], _ => by simp [total, Has]
  | e :: es, h => by
    have ih := total_pos (c := c) (t := es) (fun e he => h e (List.mem_cons_of_mem _ he))
    have he := h e (List.mem_cons_self)
    rw [Has.cons, total]
    by_cases hc : e.comp = c
    · simp [hc]; omega
    · simp [hc, ih]

/-- Is it the last assignment to its component? -/
def lastFlags : List Ev → List Bool
  | [] => []
  | e :: es => (es.all fun e' => decide (e'.comp ≠ e.comp)) :: lastFlags es

theorem flag_iff (e : Ev) (es : List Ev) : (es.all fun e' => decide (e'.comp ≠ e.comp)) = true ↔ ¬ Has e.comp es := by
  simp [Has]

/-- State of the counter of `c` before the execution `t`. -/
def Inv (san : Bool) (ctr : Comp → Int) (t : List Ev) (c : Comp) : Prop :=
  (A False c t ∧ ctr c = total c t) ∨ (B c t ∧ (total c t : Int) ≤ ctr c ∧ (san = true → ctr c = total c t)) ∨ ¬ Has c t

theorem Inv.tail {san : Bool} {ctr ctr' : Comp → Int} {e : Ev} {t : List Ev} {c : Comp} (h : Inv san ctr (e :: t) c)
    (hc : e.comp ≠ c) (h' : ctr' c = ctr c) : Inv san ctr' t c := by
  rcases h with ⟨ha, hs⟩ | ⟨hb, hs, hs'⟩ | hn
  · refine Or.inl ⟨ha.2, ?_⟩
    rw [h', hs, total, if_neg hc]; simp
  · rcases hb with hb | hb
    · exact absurd hb.1 hc
    · refine Or.inr (Or.inl ⟨hb.2, ?_, fun h => ?_⟩)
      · rw [h']; rw [total, if_neg hc] at hs; simpa using hs
      · rw [h', hs' h, total, if_neg hc]; simp
  · refine Or.inr (Or.inr fun hh => hn ?_)
    rw [Has.cons]; exact Or.inr hh

theorem cRuns_last (san : Bool) (mixed : Nat → Bool) : ∀ (t : List Ev) (ctr : Comp → Int), (∀ e ∈ t, 0 < e.amount) →
    (∀ c, Inv san ctr t c) → cRuns san mixed ctr t = some (lastFlags t) := by
  intro t
  induction t with
  | nil => intro ctr _ _; rfl
  | cons e es ih =>
    intro ctr hp hinv
    have hp' : ∀ e ∈ es, 0 < e.amount := fun x hx => hp x (List.mem_cons_of_mem _ hx)
    have he := hp e List.mem_cons_self
    have htp := total_pos (c := e.comp) hp'
    have key : ∃ ctr', cStep san (mixed e.site) ctr e = some (es.all fun e' => decide (e'.comp ≠ e.comp), ctr') ∧
        (∀ c, c ≠ e.comp → ctr' c = ctr c) ∧ Inv san ctr' es e.comp := by
      have hdec : dec ctr e e.comp = ctr e.comp - e.amount := by simp [dec]
      have hdo : ∀ c, c ≠ e.comp → dec ctr e c = ctr c := fun c hc => by simp [dec, hc]
      rcases hinv e.comp with ⟨ha, hs⟩ | ⟨hb, hs, hs'⟩ | hn
      · have hs2 : ctr e.comp - e.amount = total e.comp es := by
          rw [hs, total, if_pos rfl]; push_cast; ring
        rcases ha.1 rfl with h | ⟨h, h' | h'⟩
        · refine ⟨dec ctr e, ?_, hdo, Or.inl ⟨ha.2, by rw [hdec, hs2]⟩⟩
          simp only [cStep, h, hdec, hs2]
          congr 2
          rw [Bool.eq_iff_iff, flag_iff, decide_eq_true_eq, ← htp]
          constructor <;> intro h <;> omega
        · refine ⟨dec ctr e, ?_, hdo, Or.inl ⟨ha.2, by rw [hdec, hs2]⟩⟩
          have hpos : (0 : Int) < total e.comp es := by exact_mod_cast htp.2 h'
          have hfl : (es.all fun e' => decide (e'.comp ≠ e.comp)) = false := by
            rw [Bool.eq_false_iff, Ne, flag_iff]; simpa using h'
          simp only [cStep, h, hdec, hs2, hfl]
          rw [if_pos (by simp), if_neg (by simp [hpos]; intro _; omega)]
        · exact h'.elim
      · rcases hb with ⟨-, hi, hno⟩ | ⟨hi, hb⟩
        · have hfl : (es.all fun e' => decide (e'.comp ≠ e.comp)) = true := by rw [flag_iff]; exact hno
          have h0 : total e.comp es = 0 := by
            by_contra hc; exact hno (htp.1 (by omega))
          cases san with
          | false =>
            refine ⟨ctr, ?_, fun _ _ => rfl, Or.inr (Or.inr hno)⟩
            simp only [cStep, hi, hfl]; simp
          | true =>
            refine ⟨dec ctr e, ?_, hdo, Or.inr (Or.inr hno)⟩
            have : ctr e.comp - e.amount = 0 := by
              rw [hs' rfl, total, if_pos rfl, h0]; simp
            simp only [cStep, hi, hdec, this, hfl]; simp
        · have hh := hb.has
          have hpos : (0 : Int) < total e.comp es := by exact_mod_cast htp.2 hh
          have hfl : (es.all fun e' => decide (e'.comp ≠ e.comp)) = false := by
            rw [Bool.eq_false_iff, Ne, flag_iff]; simpa using hh
          have hs2 : (total e.comp es : Int) ≤ ctr e.comp - e.amount := by
            rw [total, if_pos rfl] at hs; push_cast at hs; linarith
          have hs3 : san = true → ctr e.comp - e.amount = total e.comp es := by
            intro h; rw [hs' h, total, if_pos rfl]; push_cast; ring
          have hgood : Inv san (dec ctr e) es e.comp :=
            Or.inr (Or.inl ⟨hb, by rw [hdec]; exact hs2, fun h => by rw [hdec]; exact hs3 h⟩)
          rcases hi rfl with h | h
          · by_cases hn : (e.info.needs || san) = true
            · refine ⟨dec ctr e, ?_, hdo, hgood⟩
              have : 0 < ctr e.comp - e.amount := by linarith
              simp only [cStep, h, hfl, hdec]
              rw [if_pos hn, if_neg (by simp; intro _; linarith)]
            · refine ⟨ctr, ?_, fun _ _ => rfl, Or.inr (Or.inl ⟨hb, ?_, ?_⟩)⟩
              · simp only [cStep, h, hn, hfl]; simp
              · have : (0 : Int) ≤ e.amount := by positivity
                linarith
              · intro h; simp [h] at hn
          · refine ⟨dec ctr e, ?_, hdo, hgood⟩
            have : ¬ (ctr e.comp - e.amount = 0) := by intro h; omega
            simp only [cStep, h, hdec, hfl]
            simp [this]
      · exact absurd (by rw [Has.cons]; exact Or.inl rfl) hn
    obtain ⟨ctr', hstep, hoth, hself⟩ := key
    have := ih ctr' hp' (fun c => by
      by_cases hc : c = e.comp
      · subst hc; exact hself
      · exact (hinv c).tail (fun h => hc h.symm) (hoth c hc))
    simp only [cRuns, hstep, this, lastFlags]

theorem wRuns_last : ∀ (t : List Ev) (ctr : Comp → Int), (∀ e ∈ t, 0 < e.amount) →
    (∀ c, Has c t → ctr c = total c t) → wRuns ctr t = lastFlags t := by
  intro t
  induction t with
  | nil => intro ctr _ _; rfl
  | cons e es ih =>
    intro ctr hp hinv
    have hp' : ∀ e ∈ es, 0 < e.amount := fun x hx => hp x (List.mem_cons_of_mem _ hx)
    have he := hp e List.mem_cons_self
    have htp := total_pos (c := e.comp) hp'
    have hs := hinv e.comp (by rw [Has.cons]; exact Or.inl rfl)
    have hs2 : ctr e.comp - e.amount = total e.comp es := by
      rw [hs, total, if_pos rfl]; push_cast; ring
    have hdec : dec ctr e e.comp = ctr e.comp - e.amount := by simp [dec]
    rw [wRuns, lastFlags, ih (dec ctr e) hp' (fun c hc => ?_)]
    · congr 1
      rw [Bool.eq_iff_iff, flag_iff, decide_eq_true_eq, ← htp, hdec, hs2]
      constructor <;> intro h <;> omega
    · by_cases h : c = e.comp
      · subst h; rw [hdec, hs2]
      · have := hinv c (by rw [Has.cons]; exact Or.inr hc)
        rw [dec, if_neg h, this, total, if_neg (fun h' => h h'.symm)]; simp

/-! ## Assignments inside loops and conditions -/

/-- Entries of the map that can occur: `found` only misses for counted components, anonymous components are always found. -/
def Wf (e : Env) : Prop :=
  (∀ k, e.ent (.cmp k) ≠ some ⟨false, false⟩) ∧ (∀ n i, e.ent (.anon n) = some i → i.found = true)

/-- Change of the map in a loop or condition: final entries stay, others stay open. -/
def Ext (e e' : Env) : Prop :=
  (∀ k, e'.ent (.cmp k) = e.ent (.cmp k) ∨
    ((e.ent (.cmp k) = none ∨ e.ent (.cmp k) = some ⟨true, false⟩) ∧ e'.ent (.cmp k) = some ⟨true, false⟩)) ∧
  ∀ n, n ∈ e.unk → n ∈ e'.unk

theorem Ext.refl (e : Env) : Ext e e := ⟨fun _ => Or.inl rfl, fun _ h => h⟩

theorem Ext.trans {a b c : Env} (h1 : Ext a b) (h2 : Ext b c) : Ext a c := by
  refine ⟨fun k => ?_, fun n h => h2.2 n (h1.2 n h)⟩
  rcases h1.1 k with h | ⟨h, h'⟩
  · rw [← h]; exact h2.1 k
  · rcases h2.1 k with g | ⟨-, g⟩
    · exact Or.inr ⟨h, by rw [g]; exact h'⟩
    · exact Or.inr ⟨h, g⟩

/-- Marks of the assignments to the component at `k` in a loop or condition, by the entry of the map for what follows. -/
def LoopOk (o : Option LastInfo) (lv : Prop) (k : Nat) (t : List Ev) : Prop :=
  match o with
  | some ⟨n, true⟩ => ∀ e ∈ t, e.comp = .cmp k → e.info = ⟨.noLast, n⟩ ∨ e.info = ⟨.unknown, true⟩
  | _ => A lv (.cmp k) t

theorem LoopOk.open_ {o : Option LastInfo} {lv : Prop} {k : Nat} {t : List Ev} (ho : o = none ∨ o = some ⟨true, false⟩) :
    LoopOk o lv k t ↔ A lv (.cmp k) t := by
  rcases ho with rfl | rfl <;> rfl

/-- All of it. -/
structure Loop (nm : Nat → Nat) (e e' : Env) (lv lv' : List Nat) (t : List Ev) : Prop where
  ok : ∀ k, LoopOk (e.ent (.cmp k)) (k ∈ lv) k t
  cover : ∀ k, Has (.cmp k) t → e'.ent (.cmp k) ≠ none ∨ nm k ∈ e'.unk
  level : ∀ k, k ∈ lv' → k ∈ lv ∨ Has (.cmp k) t
  plain : ∀ k, e'.ent (.cmp k) = none → ∀ x ∈ t, x.comp = .cmp k → x.info = ⟨.unknown, true⟩

theorem wf_cases {e : Env} (h : Wf e) (k : Nat) : (∃ n, e.ent (.cmp k) = some ⟨n, true⟩) ∨
    (e.ent (.cmp k) = none ∨ e.ent (.cmp k) = some ⟨true, false⟩) := by
  have := h.1 k
  rcases hk : e.ent (.cmp k) with _ | ⟨n, f⟩
  · simp
  · cases f
    · cases n
      · exact absurd hk this
      · simp
    · simp

theorem Ext.found {e e' : Env} (h : Ext e e') {k : Nat} {n : Bool} (hk : e.ent (.cmp k) = some ⟨n, true⟩) :
    e'.ent (.cmp k) = some ⟨n, true⟩ := by
  rcases h.1 k with g | ⟨g, -⟩
  · rw [g]; exact hk
  · rw [hk] at g; simp at g

theorem Ext.opn {e e' : Env} (h : Ext e e') {k : Nat} (hk : e.ent (.cmp k) = none ∨ e.ent (.cmp k) = some ⟨true, false⟩) :
    e'.ent (.cmp k) = none ∨ e'.ent (.cmp k) = some ⟨true, false⟩ := by
  rcases h.1 k with g | ⟨-, g⟩
  · rw [g]; exact hk
  · exact Or.inr g

theorem Ext.back {e e' : Env} (h : Ext e e') {k : Nat} (hk : e'.ent (.cmp k) = none) : e.ent (.cmp k) = none := by
  rcases h.1 k with g | ⟨-, g⟩
  · rw [← g]; exact hk
  · rw [g] at hk; simp at hk

theorem Ext.covered {e e' : Env} (h : Ext e e') {nm : Nat → Nat} {k : Nat} (hk : e.ent (.cmp k) ≠ none ∨ nm k ∈ e.unk) :
    e'.ent (.cmp k) ≠ none ∨ nm k ∈ e'.unk := by
  rcases hk with hk | hk
  · left
    rcases h.1 k with g | ⟨-, g⟩
    · rw [g]; exact hk
    · rw [g]; simp
  · exact Or.inr (h.2 _ hk)

theorem Loop.append {nm : Nat → Nat} {e e1 e2 : Env} {lv lv1 lv2 : List Nat} {a b : List Ev} (hwf : Wf e) (hx1 : Ext e e1)
    (hx2 : Ext e1 e2) (hb : Loop nm e e1 lv lv1 b) (ha : Loop nm e1 e2 lv1 lv2 a) : Loop nm e e2 lv lv2 (a ++ b) := by
  refine ⟨fun k => ?_, fun k hk => ?_, fun k hk => ?_, fun k hk x hx => ?_⟩
  · rcases wf_cases hwf k with ⟨n, hk⟩ | hk
    · have h1 := hb.ok k
      have h2 := ha.ok k
      rw [hx1.found hk] at h2
      rw [hk] at h1 ⊢
      intro x hx
      rcases List.mem_append.1 hx with hx | hx
      · exact h2 x hx
      · exact h1 x hx
    · have h1 := (LoopOk.open_ hk).1 (hb.ok k)
      have h2 := (LoopOk.open_ (hx1.opn hk)).1 (ha.ok k)
      rw [LoopOk.open_ hk]
      refine A.append (A.mono (fun h => ?_) h2) h1
      have := hb.level k h
      tauto
  · rcases Has.append.1 hk with h | h
    · exact ha.cover k h
    · exact hx2.covered (hb.cover k h)
  · rcases ha.level k hk with h | h
    · rcases hb.level k h with g | g
      · exact Or.inl g
      · exact Or.inr (Has.append.2 (Or.inr g))
    · exact Or.inr (Has.append.2 (Or.inl h))
  · rcases List.mem_append.1 hx with hx | hx
    · exact ha.plain k hk x hx
    · exact hb.plain k (hx2.back hk) x hx

theorem Loop.nil (nm : Nat → Nat) (e : Env) (lv : List Nat) : Loop nm e e lv lv [] := by
  refine ⟨fun k => ?_, fun k hk => absurd hk not_has_nil, fun k hk => Or.inl hk, fun k hk x hx => by simp at hx⟩
  rcases e.ent (.cmp k) with _ | ⟨n, f⟩
  · trivial
  · cases f
    · trivial
    · intro x hx; simp at hx

/-- A branch or the repetition of a loop body. -/
theorem Loop.inner {nm : Nat → Nat} {e e1 e2 : Env} {lv lv1 : List Nat} {t : List Ev} (hwf : Wf e) (hx : Ext e e1)
    (hx2 : Ext e1 e2) (h : Loop nm e e1 [] lv1 t) : Loop nm e e2 lv lv t := by
  refine ⟨fun k => ?_, fun k hk => hx2.covered (h.cover k hk), fun k hk => Or.inl hk, fun k hk => h.plain k (hx2.back hk)⟩
  have := h.ok k
  rcases wf_cases hwf k with ⟨n, hk⟩ | hk
  · rw [hk] at this ⊢; exact this
  · rw [LoopOk.open_ hk] at this ⊢
    exact A.mono (fun h => by simp at h) this

theorem Loop.earlier {nm : Nat → Nat} {e e1 e2 : Env} {lv1 : List Nat} {t : List Ev} (hwf : Wf e) (hx : Ext e e1)
    (h : Loop nm e1 e2 [] lv1 t) : Loop nm e e2 [] lv1 t := by
  refine ⟨fun k => ?_, h.cover, h.level, h.plain⟩
  have := h.ok k
  rcases wf_cases hwf k with ⟨n, hk⟩ | hk
  · rw [hx.found hk] at this; rw [hk]; exact this
  · rw [LoopOk.open_ (hx.opn hk)] at this; rw [LoopOk.open_ hk]; exact this

theorem Loop.flatten {nm : Nat → Nat} {e e1 : Env} {lv1 : List Nat} (hwf : Wf e) (hx : Ext e e1) : ∀ (ts : List (List Ev)),
    (∀ t ∈ ts, Loop nm e e1 [] lv1 t) → Loop nm e e1 [] [] ts.flatten
  | [], _ => by
    have := Loop.nil nm e []
    exact ⟨this.ok, fun k hk => absurd hk not_has_nil, this.level, fun k hk x hx => by simp at hx⟩
  | t :: ts, h => by
    have h1 := Loop.flatten hwf hx ts (fun t ht => h t (List.mem_cons_of_mem _ ht))
    have h2 := h t List.mem_cons_self
    refine ⟨fun k => ?_, fun k hk => ?_, fun k hk => by simp at hk, fun k hk x hx => ?_⟩
    · have g1 := h1.ok k
      have g2 := h2.ok k
      rw [List.flatten_cons]
      rcases wf_cases hwf k with ⟨n, hk⟩ | hk
      · rw [hk] at g1 g2 ⊢
        intro x hx
        rcases List.mem_append.1 hx with hx | hx
        · exact g2 x hx
        · exact g1 x hx
      · rw [LoopOk.open_ hk] at g1 g2 ⊢
        exact A.append (A.mono (fun h => by simp at h) g2) g1
    · rw [List.flatten_cons, Has.append] at hk
      rcases hk with hk | hk
      · exact h2.cover k hk
      · exact h1.cover k hk
    · rw [List.flatten_cons] at hx
      rcases List.mem_append.1 hx with hx | hx
      · exact h2.plain k hk x hx
      · exact h1.plain k hk x hx

theorem set_ent (e : Env) (k x : Key) (i : LastInfo) : (e.set k i).ent x = if x = k then some i else e.ent x := rfl

theorem A_single {lv : Prop} {c : Comp} {e : Ev} (h : e.comp = c → e.info = ⟨.unknown, true⟩ ∨ (e.info = ⟨.noLast, true⟩ ∧ lv)) :
    A lv c [e] := by
  refine ⟨fun hc => ?_, trivial⟩
  rcases h hc with h | h
  · exact Or.inl h
  · exact Or.inr ⟨h.1, Or.inr h.2⟩

theorem LoopOk_other {o : Option LastInfo} {lv : Prop} {k : Nat} {e : Ev} (h : e.comp ≠ .cmp k) : LoopOk o lv k [e] := by
  rcases o with _ | ⟨n, f⟩
  · exact A_single (fun hc => absurd hc h)
  · cases f
    · exact A_single (fun hc => absurd hc h)
    · intro x hx; rw [List.mem_singleton] at hx; subst hx; intro hc; exact absurd hc h

theorem LoopOk_unknown {o : Option LastInfo} {lv : Prop} {k : Nat} {e : Ev} (h : e.info = ⟨.unknown, true⟩) : LoopOk o lv k [e] := by
  rcases o with _ | ⟨n, f⟩
  · exact A_single (fun hc => Or.inl h)
  · cases f
    · exact A_single (fun hc => Or.inl h)
    · intro x hx; rw [List.mem_singleton] at hx; subst hx; intro hc; exact Or.inr h

theorem has_single {c : Comp} {e : Ev} : Has c [e] ↔ e.comp = c := by simp [Has]

theorem visitTgt_loop (nm : Nat → Nat) (e : Env) (lv : List Nat) (t : Tgt) (hwf : Wf e) :
    Wf (visitTgt true e lv t).2.1 ∧ Ext e (visitTgt true e lv t).2.1 ∧ (visitTgt true e lv t).2.1.bad = e.bad ∧
    ∀ x : Ev, hits nm t x.comp → x.info = (visitTgt true e lv t).1 →
      Loop nm e (visitTgt true e lv t).2.1 lv (visitTgt true e lv t).2.2 [x] := by
  cases t with
  | anon n =>
    simp only [visitTgt]
    rcases hn : e.ent (.anon n) with _ | i
    · refine ⟨⟨fun k => ?_, fun m i hi => ?_⟩, ⟨fun k => Or.inl ?_, fun _ h => h⟩, rfl, ?_⟩
      · simp [set_ent, hwf.1 k]
      · rw [set_ent] at hi
        split at hi
        · simp at hi; subst hi; rfl
        · exact hwf.2 _ _ hi
      · simp [set_ent]
      · rintro x ⟨j, hj⟩ hx
        exact ⟨fun k => LoopOk_other (by rw [hj]; simp), fun k hk => by rw [has_single, hj] at hk; simp at hk, fun k hk => Or.inl hk,
          fun k _ y hy hc => by rw [List.mem_singleton] at hy; subst hy; rw [hj] at hc; simp at hc⟩
    · refine ⟨hwf, Ext.refl e, by simp [hwf.2 n i hn], ?_⟩
      rintro x ⟨j, hj⟩ hx
      exact ⟨fun k => LoopOk_other (by rw [hj]; simp), fun k hk => by rw [has_single, hj] at hk; simp at hk, fun k hk => Or.inl hk,
          fun k _ y hy hc => by rw [List.mem_singleton] at hy; subst hy; rw [hj] at hc; simp at hc⟩
  | unknown name =>
    simp only [visitTgt]
    refine ⟨hwf, ⟨fun k => Or.inl rfl, fun n h => List.mem_cons_of_mem _ h⟩, trivial, ?_⟩
    rintro x ⟨k, hk, hn⟩ hx
    refine ⟨fun k' => LoopOk_unknown hx, fun k' hk' => Or.inr ?_, fun k hk => Or.inl hk,
      fun k _ y hy hc => by rw [List.mem_singleton] at hy; subst hy; exact hx⟩
    rw [has_single, hk] at hk'
    cases hk'
    simp [hn]
  | known name k =>
    have hset : e.ent (.cmp k) = none →
        Wf (e.set (.cmp k) ⟨true, false⟩) ∧ Ext e (e.set (.cmp k) ⟨true, false⟩) ∧ (e.set (.cmp k) ⟨true, false⟩).bad = e.bad ∧
        ∀ x : Ev, (x.comp = .cmp k ∧ nm k = name) → x.info = ⟨.unknown, true⟩ →
          Loop nm e (e.set (.cmp k) ⟨true, false⟩) lv (k :: lv) [x] := by
      intro hn
      refine ⟨⟨fun k' => ?_, fun m i hi => ?_⟩, ⟨fun k' => ?_, fun _ h => h⟩, rfl, ?_⟩
      · rw [set_ent]; split
        · simp
        · exact hwf.1 k'
      · simp [set_ent] at hi; exact hwf.2 _ _ hi
      · by_cases h : k' = k
        · subst h; exact Or.inr ⟨Or.inl hn, by simp [set_ent]⟩
        · exact Or.inl (by simp [set_ent, h])
      · rintro x ⟨hx, hnm⟩ hi
        refine ⟨fun k' => LoopOk_unknown hi, fun k' hk' => Or.inl ?_, fun k' hk' => ?_,
          fun k _ y hy hc => by rw [List.mem_singleton] at hy; subst hy; exact hi⟩
        · rw [has_single, hx] at hk'; cases hk'; simp [set_ent]
        · rcases List.mem_cons.1 hk' with rfl | h
          · exact Or.inr (has_single.2 hx)
          · exact Or.inl h
    simp only [visitTgt, hits]
    rcases hn : e.ent (.cmp k) with _ | ⟨n, f⟩
    · have h := hset hn
      by_cases hu : name ∈ e.unk
      · simp only [hu, if_true]; exact h
      · simp only [hu, if_true, if_false]; exact h
    · cases f
      · have hnt : n = true := by
          cases n
          · exact absurd hn (hwf.1 k)
          · rfl
        subst hnt
        by_cases hl : k ∈ lv
        · simp only [hl, if_true, Bool.false_eq_true, if_false]
          refine ⟨hwf, Ext.refl e, trivial, ?_⟩
          rintro x ⟨hx, hnm⟩ hi
          refine ⟨fun k' => ?_, fun k' hk' => Or.inl ?_, fun k' hk' => Or.inl hk',
          fun k' hk' y hy hc => by
            rw [List.mem_singleton] at hy; subst hy; rw [hx] at hc; cases hc; rw [hn] at hk'; simp at hk'⟩
          · by_cases h : k' = k
            · subst h
              rw [hn]
              exact A_single (fun _ => Or.inr ⟨hi, hl⟩)
            · exact LoopOk_other (by rw [hx]; intro hc; cases hc; exact h rfl)
          · rw [has_single, hx] at hk'; cases hk'; rw [hn]; simp
        · simp only [hl, if_true, Bool.false_eq_true, if_false]
          refine ⟨hwf, Ext.refl e, trivial, ?_⟩
          rintro x ⟨hx, hnm⟩ hi
          refine ⟨fun k' => LoopOk_unknown hi, fun k' hk' => Or.inl ?_, fun k' hk' => ?_,
          fun k _ y hy hc => by rw [List.mem_singleton] at hy; subst hy; exact hi⟩
          · rw [has_single, hx] at hk'; cases hk'; rw [hn]; simp
          · rcases List.mem_cons.1 hk' with rfl | h
            · exact Or.inr (has_single.2 hx)
            · exact Or.inl h
      · simp only [if_true]
        refine ⟨hwf, Ext.refl e, trivial, ?_⟩
        rintro x ⟨hx, hnm⟩ hi
        refine ⟨fun k' => ?_, fun k' hk' => Or.inl ?_, fun k' hk' => Or.inl hk',
          fun k' hk' y hy hc => by
            rw [List.mem_singleton] at hy; subst hy; rw [hx] at hc; cases hc; rw [hn] at hk'; simp at hk'⟩
        · by_cases h : k' = k
          · subst h
            rw [hn]
            intro y hy _
            rw [List.mem_singleton] at hy; subst hy
            exact Or.inl hi
          · exact LoopOk_other (by rw [hx]; intro hc; cases hc; exact h rfl)
        · rw [has_single, hx] at hk'; cases hk'; rw [hn]; simp

mutual
theorem visitI_loop (nm : Nat → Nat) (i : Ins) (e : Env) (lv : List Nat) (hwf : Wf e) :
    Wf (visitI true e lv i).2.1 ∧ Ext e (visitI true e lv i).2.1 ∧ (visitI true e lv i).2.1.bad = e.bad ∧
    ∀ t, trI nm (visitI true e lv i).1 t → (∀ x ∈ t, 0 < x.amount) →
      Loop nm e (visitI true e lv i).2.1 lv (visitI true e lv i).2.2 t := by
  match i with
  | .store s tg size info =>
    by_cases hz : size = some 0
    · simp only [visitI, if_pos hz]
      refine ⟨hwf, Ext.refl e, trivial, ?_⟩
      rintro t ⟨x, rfl, -, -, -, ham⟩ hp
      have := ham 0 hz
      have := hp x List.mem_cons_self
      omega
    · simp only [visitI, if_neg hz]
      obtain ⟨h1, h2, hb, h3⟩ := visitTgt_loop nm e lv tg hwf
      refine ⟨h1, h2, hb, ?_⟩
      rintro t ⟨x, rfl, hh, -, hi, -⟩ hp
      exact h3 x hh hi
  | .branch a b =>
    obtain ⟨ha1, ha2, hab, ha3⟩ := visitL_loop nm a e [] hwf
    obtain ⟨hb1, hb2, hbb, hb3⟩ := visitL_loop nm b (visitL true e [] a).2.1 [] ha1
    simp only [visitI]
    refine ⟨hb1, ha2.trans hb2, by rw [hbb, hab], ?_⟩
    rintro t (ht | ht) hp
    · exact (ha3 t ht hp).inner hwf ha2 hb2
    · exact ((hb3 t ht hp).earlier hwf ha2).inner hwf (ha2.trans hb2) (Ext.refl _)
  | .loop b =>
    obtain ⟨hb1, hb2, hbb, hb3⟩ := visitL_loop nm b e [] hwf
    simp only [visitI]
    refine ⟨hb1, hb2, hbb, ?_⟩
    rintro t ⟨ts, hts, rfl⟩ hp
    exact (Loop.flatten hwf hb2 ts (fun u hu => hb3 u (hts u hu) (fun x hx => hp x (List.mem_flatten.2 ⟨u, hu, hx⟩)))).inner
      hwf hb2 (Ext.refl _)
  | .other =>
    simp only [visitI]
    refine ⟨hwf, Ext.refl e, trivial, ?_⟩
    intro t ht _
    rw [trI] at ht; subst ht
    exact Loop.nil nm e lv

theorem visitL_loop (nm : Nat → Nat) (l : List Ins) (e : Env) (lv : List Nat) (hwf : Wf e) :
    Wf (visitL true e lv l).2.1 ∧ Ext e (visitL true e lv l).2.1 ∧ (visitL true e lv l).2.1.bad = e.bad ∧
    ∀ t, trL nm (visitL true e lv l).1 t → (∀ x ∈ t, 0 < x.amount) →
      Loop nm e (visitL true e lv l).2.1 lv (visitL true e lv l).2.2 t := by
  match l with
  | [] =>
    simp only [visitL]
    refine ⟨hwf, Ext.refl e, trivial, ?_⟩
    intro t ht _
    rw [trL] at ht; subst ht
    exact Loop.nil nm e lv
  | i :: is =>
    obtain ⟨h1, h2, h2b, h3⟩ := visitL_loop nm is e lv hwf
    obtain ⟨g1, g2, g2b, g3⟩ := visitI_loop nm i (visitL true e lv is).2.1 (visitL true e lv is).2.2 h1
    simp only [visitL]
    refine ⟨g1, h2.trans g2, by rw [g2b, h2b], ?_⟩
    rintro t ⟨a, b, ha, hb, rfl⟩ hp
    exact Loop.append hwf h2 g2 (h3 b hb (fun x hx => hp x (List.mem_append.2 (Or.inr hx))))
      (g3 a ha (fun x hx => hp x (List.mem_append.2 (Or.inl hx))))
end

/-! ## The outermost list -/

/-- The entry of the map for `k` describes the assignments `t` to it that follow. -/
def R (nm : Nat → Nat) (e : Env) (k : Nat) (t : List Ev) : Prop :=
  match e.ent (.cmp k) with
  | none => (∀ x ∈ t, x.comp = .cmp k → x.info = ⟨.unknown, true⟩) ∧ (Has (.cmp k) t → nm k ∈ e.unk)
  | some ⟨true, f⟩ => A False (.cmp k) t ∧ (f = true → Has (.cmp k) t)
  | some ⟨false, _⟩ => B (.cmp k) t

theorem A_of_unknown {c : Comp} : ∀ {t : List Ev}, (∀ x ∈ t, x.comp = c → x.info = ⟨.unknown, true⟩) → A False c t
  | [], _ => trivial
  | e :: es, h => ⟨fun hc => Or.inl (h e List.mem_cons_self hc), A_of_unknown fun x hx => h x (List.mem_cons_of_mem _ hx)⟩

theorem R_none {nm : Nat → Nat} {e : Env} {k : Nat} {t : List Ev} (h : e.ent (.cmp k) = none) :
    R nm e k t ↔ (∀ x ∈ t, x.comp = .cmp k → x.info = ⟨.unknown, true⟩) ∧ (Has (.cmp k) t → nm k ∈ e.unk) := by
  unfold R; rw [h]

theorem R_true {nm : Nat → Nat} {e : Env} {k : Nat} {t : List Ev} {f : Bool} (h : e.ent (.cmp k) = some ⟨true, f⟩) :
    R nm e k t ↔ A False (.cmp k) t ∧ (f = true → Has (.cmp k) t) := by
  unfold R; rw [h]

theorem R_false {nm : Nat → Nat} {e : Env} {k : Nat} {t : List Ev} {f : Bool} (h : e.ent (.cmp k) = some ⟨false, f⟩) :
    R nm e k t ↔ B (.cmp k) t := by
  unfold R; rw [h]

/-- Prefixing a loop or condition. -/
theorem R_loop {nm : Nat → Nat} {e e' : Env} {lv' : List Nat} {k : Nat} {a t : List Ev} (hwf : Wf e) (hx : Ext e e')
    (hl : Loop nm e e' [] lv' a) (hr : R nm e k t) : R nm e' k (a ++ t) := by
  have hok := hl.ok k
  rcases wf_cases hwf k with ⟨n, hk⟩ | hk
  · have hk' := hx.found hk
    rw [hk] at hok
    cases n
    · rw [R_false hk] at hr
      rw [R_false hk']
      exact B.append (fun x hxm hc => by
        rcases hok x hxm hc with h | h
        · exact Or.inl (by rw [h])
        · exact Or.inr h) hr
    · rw [R_true hk] at hr
      rw [R_true hk']
      have hh := hr.2 rfl
      refine ⟨A.append ?_ hr.1, fun _ => Has.append.2 (Or.inr hh)⟩
      have : ∀ (a : List Ev), (∀ x ∈ a, x.comp = .cmp k → x.info = ⟨.noLast, true⟩ ∨ x.info = ⟨.unknown, true⟩) →
          A (Has (.cmp k) t ∨ False) (.cmp k) a := by
        intro a
        induction a with
        | nil => intro _; trivial
        | cons x xs ih =>
          intro h
          refine ⟨fun hc => ?_, ih fun y hy => h y (List.mem_cons_of_mem _ hy)⟩
          rcases h x List.mem_cons_self hc with g | g
          · exact Or.inr ⟨g, Or.inr (Or.inl hh)⟩
          · exact Or.inl g
      exact this a hok
  · rw [LoopOk.open_ hk] at hok
    have hA : A False (.cmp k) t := by
      rcases hk with hk | hk
      · rw [R_none hk] at hr; exact A_of_unknown hr.1
      · rw [R_true hk] at hr; exact hr.1
    have hA' : A False (.cmp k) (a ++ t) := A.append (A.mono (fun h => by simp at h) hok) hA
    rcases hx.opn hk with hk' | hk'
    · -- no entry afterwards: only assignments to unknown positions
      have hk0 : e.ent (.cmp k) = none := by
        rcases hx.1 k with g | ⟨-, g⟩
        · rw [← g]; exact hk'
        · rw [g] at hk'; simp at hk'
      rw [R_none hk0] at hr
      rw [R_none hk']
      refine ⟨fun x hxm hc => ?_, fun h => ?_⟩
      · rcases List.mem_append.1 hxm with h | h
        · exact hl.plain k hk' x h hc
        · exact hr.1 x h hc
      · rcases Has.append.1 h with h | h
        · rcases hl.cover k h with g | g
          · exact absurd hk' g
          · exact g
        · exact hx.2 _ (hr.2 h)
    · rw [R_true hk']; exact ⟨hA', fun h => by simp at h⟩

end Verif.Runs
