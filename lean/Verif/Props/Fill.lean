import Verif.FillTop

/-!
# C70: a component counts as fed exactly when all its inputs are assigned

`hasOpen c` is the test the compiler makes before it lets outputs of a component be read and at the end of a template;
`flatFs c` lists the assignment states of all signals of the inputs.  `initFs sh` is a fresh component with inputs of structure
`sh`.  `SolidFs sh`: every bus contains at least one signal.
-/

set_option linter.unusedVariables false

namespace Verif.Props.Fill
open Verif.Fill
open Verif.Exec (AState)

/-- Assignments without condition and with at least one element. -/
def Plain (ops : List Op) : Prop := ∀ a ∈ ops, a.new = .assigned ∧ a.path.size ≠ 0

/-- **C70**, unconditional assignments: after every accepted sequence the component counts as fed iff no signal of its inputs is
left unassigned.  `_partial`: empty arrays inside buses and assignments in both branches of a condition break it, see below. -/
theorem C70_fed_partial (sh : List Field) (hs : SolidFs sh) (ops : List Op) (hp : Plain ops) (c : List Field)
    (h : run ops (initFs sh) = .ok c) : hasOpen c = false ↔ ∀ x ∈ flatFs c, x ≠ .noAssigned := by
  obtain ⟨h1, h2⟩ := InvFs_init sh hs
  obtain ⟨g1, -, -⟩ := run_inv ops _ _ h hp h1 ((SolidFs_init sh).2 hs) h2
  rw [g1.open_iff, List.any_eq_false]
  constructor
  · intro hh x hx hc; exact hh x hx (by simp [hc])
  · intro hh x hx hc; exact hh x hx (by simpa using hc)

/-- The same with conditions when every signal is assigned by at most one statement. -/
theorem C70_conditional_partial (sh : List Field) (hs : SolidFs sh) (ops : List Op)
    (hp : ∀ a ∈ ops, a.new ≠ .noAssigned ∧ a.path.size ≠ 0) (hap : ops.Pairwise (Apart sh)) (c : List Field)
    (h : run ops (initFs sh) = .ok c) : hasOpen c = false ↔ ∀ x ∈ flatFs c, x ≠ .noAssigned := by
  obtain ⟨h1, h2⟩ := InvFs_init sh hs
  have g1 := run_inv_apart ops _ _ h hp h1 ((SolidFs_init sh).2 hs) (hap.imp (fun {a b} hab o l o' l' e1 e2 => by
    rw [opSpan_init] at e1 e2; exact hab o l o' l' e1 e2)) (fun a _ => fresh_init a sh)
  rw [g1.open_iff, List.any_eq_false]
  constructor
  · intro hh x hx hc; exact hh x hx (by simp [hc])
  · intro hh x hx hc; exact hh x hx (by simpa using hc)

theorem accept_iff (sh : List Field) : ∀ (ops : List Op) (c : List Field), Plain ops → InvFs c → SolidFs c → HasFs c →
    initFs c = initFs sh →
    ((∃ c', run ops c = .ok c') ↔ (∀ a ∈ ops, (opSpan a sh).isSome) ∧ ops.Pairwise (Apart sh) ∧ ∀ a ∈ ops, OpFresh a c)
  | [], c, _, _, _, _, _ => by simp [run]
  | a :: ops, c, hp, hi, hs, hh, hin => by
    have ha := hp a List.mem_cons_self
    have hp' : Plain ops := fun x hx => hp x (List.mem_cons_of_mem _ hx)
    have hsp : ∀ (x : Op), opSpan x c = opSpan x sh := fun x => opSpan_congr x hin
    constructor
    · rintro ⟨c', h⟩
      obtain ⟨d, h1, h2⟩ := (run_cons ..).1 h
      obtain ⟨o, l, e1, hc, hd⟩ := step_ok a c d h1
      have hfr := step_fresh a c d h1 ha.1
      have hid := step_inv a c d h1 (by rw [ha.1]; simp) hi hs ha.2 hfr
      have hhd := step_has a c d h1 ha.1 hs hh ha.2
      obtain ⟨k1, k2, k3⟩ := (accept_iff sh ops d hp' hid ((solid_congr hd).2 hs) hhd (hd.trans hin)).1 ⟨c', h2⟩
      -- the signals of later assignments are untouched by `a`
      have hun : ∀ x ∈ ops, ∀ o' l', opSpan x sh = some (o', l') → ∀ i, o' ≤ i → i < o' + l' → ¬ (o ≤ i ∧ i < o + l) := by
        intro x hx o' l' e2 i g1 g2 g
        obtain ⟨u, v, hu, hv, huv⟩ := hc.2.2.1 i g.1 g.2
        rw [ha.1, cell_assigned] at huv
        have := k3 x hx o' l' (by rw [← e2]; exact opSpan_congr x (hd.trans hin)) i g1 g2
        rw [hv, huv.2] at this
        simp at this
      refine ⟨?_, ?_, ?_⟩
      · intro x hx
        rcases List.mem_cons.1 hx with rfl | hx
        · rw [← hsp, e1]; rfl
        · exact k1 x hx
      · rw [List.pairwise_cons]
        refine ⟨fun x hx o1 l1 o' l' f1 f2 => ?_, k2⟩
        rw [← hsp, e1] at f1
        simp only [Option.some.injEq, Prod.mk.injEq] at f1
        obtain ⟨rfl, rfl⟩ := f1
        have hl : l ≠ 0 := by
          unfold opSpan at e1
          split at e1
          · cases e1
          · rename_i f hf
            split at e1
            · cases e1
            · rename_i oo ll hq
              simp only [Option.some.injEq, Prod.mk.injEq] at e1
              rw [← e1.2]
              exact span_pos _ _ _ _ ((SolidFs_iff c).1 hs f (List.mem_of_getElem? hf)) ha.2 hq
        by_contra hcon
        rw [not_or] at hcon
        by_cases hlt : o' ≤ o
        · exact hun x hx o' l' f2 o hlt (by omega) ⟨le_refl _, by omega⟩
        · have hl' : l' ≠ 0 := by
            rw [← hsp] at f2
            unfold opSpan at f2
            split at f2
            · cases f2
            · rename_i f hf
              split at f2
              · cases f2
              · rename_i oo ll hq
                simp only [Option.some.injEq, Prod.mk.injEq] at f2
                rw [← f2.2]
                exact span_pos _ _ _ _ ((SolidFs_iff c).1 hs f (List.mem_of_getElem? hf)) (hp' x hx).2 hq
          exact hun x hx o' l' f2 o' (le_refl _) (by omega) ⟨by omega, by omega⟩
      · intro x hx
        rcases List.mem_cons.1 hx with rfl | hx
        · exact hfr
        · intro o' l' f2 i g1 g2
          rw [hsp] at f2
          have := k3 x hx o' l' (by rw [← f2]; exact opSpan_congr x (hd.trans hin)) i g1 g2
          rw [hc.2.2.2 i (hun x hx o' l' f2 i g1 g2)] at this
          exact this
    · rintro ⟨k1, k2, k3⟩
      rw [List.pairwise_cons] at k2
      obtain ⟨d, h1⟩ := step_total a c ha.1 hi hs hh ha.2 (k3 a List.mem_cons_self) (by rw [hsp]; exact k1 a List.mem_cons_self)
      obtain ⟨o, l, e1, hc, hd⟩ := step_ok a c d h1
      have hfr := step_fresh a c d h1 ha.1
      have hid := step_inv a c d h1 (by rw [ha.1]; simp) hi hs ha.2 hfr
      have hhd := step_has a c d h1 ha.1 hs hh ha.2
      obtain ⟨c', h2⟩ := (accept_iff sh ops d hp' hid ((solid_congr hd).2 hs) hhd (hd.trans hin)).2
        ⟨fun x hx => k1 x (List.mem_cons_of_mem _ hx), k2.2, fun x hx o' l' f2 i g1 g2 => by
          rw [opSpan_congr x (hd.trans hin)] at f2
          have hap := k2.1 x hx o l o' l' (by rw [← hsp]; exact e1) f2
          rw [hc.2.2.2 i (by omega)]
          exact k3 x (List.mem_cons_of_mem _ hx) o' l' (by rw [hsp]; exact f2) i g1 g2⟩
      exact ⟨c', (run_cons ..).2 ⟨d, h1, h2⟩⟩

/-- Unconditional assignments are accepted iff all of them denote existing cells and no two concern the same signal; in particular
no counter is lowered below zero. -/
theorem C70_accepted (sh : List Field) (hs : SolidFs sh) (ops : List Op) (hp : Plain ops) :
    (∃ c, run ops (initFs sh) = .ok c) ↔ (∀ a ∈ ops, (opSpan a sh).isSome) ∧ ops.Pairwise (Apart sh) := by
  obtain ⟨h1, h2⟩ := InvFs_init sh hs
  rw [accept_iff sh ops (initFs sh) hp h1 ((SolidFs_init sh).2 hs) h2 (initFs_idem sh)]
  constructor
  · rintro ⟨a, b, -⟩; exact ⟨a, b⟩
  · rintro ⟨a, b⟩; exact ⟨a, b, fun x _ => fresh_init x sh⟩

/-- Unconditional assignments made before the component is initialised have the same effect as if they were carried out at once,
although they are carried out in another order. -/
theorem C70_delayed_partial (sh : List Field) (hs : SolidFs sh) (before after : List Op) (hp : Plain (before ++ after))
    (c : List Field) : runDelayed before after (initFs sh) = .ok c ↔ run (before ++ after) (initFs sh) = .ok c := by
  obtain ⟨h1, h2⟩ := InvFs_init sh hs
  have hperm := (delayed_perm (initFs sh) before).append_right after
  unfold runDelayed
  constructor
  · exact run_perm hperm _ _ (fun a ha => hp a (hperm.mem_iff.1 ha)) h1 ((SolidFs_init sh).2 hs) h2
  · exact run_perm hperm.symm _ _ hp h1 ((SolidFs_init sh).2 hs) h2

/-- An input that is one signal, with its counter 0 once it is assigned. -/
def One (f : Field) : Prop := ∃ x, f = .mk (.sig [x]) (if x = .noAssigned then 1 else 0)

theorem assignCell_ne {x y new : AState} (hn : new ≠ .noAssigned) (h : Verif.Exec.assignCell x new = .ok y) : y ≠ .noAssigned := by
  unfold Verif.Exec.assignCell at h
  split at h
  · simp only [Except.ok.injEq] at h; exact h ▸ hn
  · cases h
  · split at h
    · cases h
    · cases h
    · split at h
      · cases h
      · split at h
        · split at h
          · split at h <;> (simp only [Except.ok.injEq] at h; rw [← h]; simp)
          · simp only [Except.ok.injEq] at h; rw [← h]; simp
        · cases h

theorem assign_one {new : AState} (hn : new ≠ .noAssigned) (p : Path) (f : Field) (hf : One f) :
    (∀ g, assign new p f = .ok g → One g) ∧ assign new p f ≠ .error .underflow := by
  obtain ⟨x, rfl⟩ := hf
  rcases p with ⟨s, n⟩ | ⟨i, j, r⟩
  · simp only [assign]
    split
    · simp
    · rename_i hl
      simp only [List.length_singleton, not_lt] at hl
      have hcase : n = 0 ∨ (s = 0 ∧ n = 1) := by omega
      rcases hcase with rfl | ⟨rfl, rfl⟩
      · simp only [List.take_zero, assignSigs, Nat.add_zero, List.append_nil, List.take_append_drop]
        have hlow : ∀ l, lower l 0 = .ok l := by intro l; unfold lower; split <;> simp_all
        rw [hlow]
        simp only [Except.ok.injEq, reduceCtorEq, ne_eq, not_false_eq_true, and_true]
        rintro g rfl
        exact ⟨x, rfl⟩
      · simp only [List.drop_zero, List.take_succ_cons, List.take_zero, assignSigs]
        rcases hc : Verif.Exec.assignCell x new with e | y
        · simp
        · have hy := assignCell_ne hn hc
          have hlow : lower (if x = .noAssigned then 1 else 0) 1 = .ok 0 := by split <;> rfl
          simp only [hlow, Nat.zero_add, List.drop_succ_cons, List.drop_nil, List.nil_append, List.append_nil, Except.ok.injEq,
            reduceCtorEq, ne_eq, not_false_eq_true, and_true]
          rintro g rfl
          exact ⟨y, by simp [hy]⟩
  · simp [assign]

theorem run_one : ∀ (ops : List Op) (c : List Field), (∀ a ∈ ops, a.new ≠ .noAssigned) → (∀ f ∈ c, One f) →
    (∀ c', run ops c = .ok c' → ∀ f ∈ c', One f) ∧ run ops c ≠ .error .underflow
  | [], c, _, hc => by simp [run]; exact hc
  | a :: ops, c, hn, hc => by
    simp only [run]
    rcases hs : step a c with e | d
    · simp only [reduceCtorEq, false_implies, implies_true, ne_eq, Except.error.injEq, true_and]
      rintro rfl
      unfold step at hs
      split at hs
      · simp at hs
      · rename_i f hf
        have := (assign_one (hn a List.mem_cons_self) a.path f (hc f (List.mem_of_getElem? hf))).2
        split at hs
        · rename_i e he; simp only [Except.error.injEq] at hs; subst hs; exact this he
        · cases hs
    · refine run_one ops d (fun b hb => hn b (List.mem_cons_of_mem _ hb)) ?_
      unfold step at hs
      split at hs
      · cases hs
      · rename_i f hf
        have := (assign_one (hn a List.mem_cons_self) a.path f (hc f (List.mem_of_getElem? hf))).1
        split at hs
        · cases hs
        · rename_i g hg
          simp only [Except.ok.injEq] at hs; subst hs
          intro y hy
          rcases List.mem_or_eq_of_mem_set hy with h | h
          · exact hc y h
          · subst h; exact this y hg

/-- For components whose inputs are single signals all assignments are counted right, whatever their conditions: several
conditional assignments of the same input count once. -/
theorem C70_single_partial (sh : List Field) (h1 : ∀ f ∈ sh, ∃ x l, f = .mk (.sig [x]) l) (ops : List Op)
    (hp : ∀ a ∈ ops, a.new ≠ .noAssigned) :
    run ops (initFs sh) ≠ .error .underflow ∧
    ∀ c, run ops (initFs sh) = .ok c → (hasOpen c = false ↔ ∀ x ∈ flatFs c, x ≠ .noAssigned) := by
  have h0 : ∀ f ∈ initFs sh, One f := by
    rw [initFs_map]
    intro f hf
    obtain ⟨g, hg, rfl⟩ := List.mem_map.1 hf
    obtain ⟨x, l, rfl⟩ := h1 g hg
    exact ⟨.noAssigned, rfl⟩
  obtain ⟨r1, r2⟩ := run_one ops _ hp h0
  refine ⟨r2, fun c hc => ?_⟩
  have := r1 c hc
  clear hc r1
  induction c with
  | nil => simp [hasOpen, flatFs]
  | cons f fs ih =>
    obtain ⟨x, rfl⟩ := this f List.mem_cons_self
    have ih := ih (fun g hg => this g (List.mem_cons_of_mem _ hg))
    have hcons : hasOpen (.mk (.sig [x]) (if x = .noAssigned then 1 else 0) :: fs) =
        (decide (x = .noAssigned) || hasOpen fs) := by
      by_cases hx : x = .noAssigned
      · subst hx; rfl
      · rw [if_neg hx]; simp only [hx, decide_false]; rfl
    rw [hcons, Bool.or_eq_false_iff]
    refine (and_congr_right fun _ => ih).trans ?_
    simp only [flatFs, flatF, List.singleton_append, List.mem_cons, forall_eq_or_imp, decide_eq_false_iff_not, ne_eq]

example : (match run [⟨0, .here 0 1, .mightAssigned [(1, true)]⟩, ⟨0, .here 0 1, .mightAssigned [(1, false)]⟩,
      ⟨1, .here 0 1, .assigned⟩] (initFs [.mk (.sig [.noAssigned]) 0, .mk (.sig [.noAssigned]) 0]) with
    | .ok c => !hasOpen c | _ => false) = true := by decide +kernel

/-! ## Examples -/

/-- Inputs: signals `a[3]` and buses `b[2]` with a signal `x`, signals `y[2]` and a nested bus `n` with one signal. -/
def shape : List Field :=
  let n : Bus := .mk false [.mk (.sig [.noAssigned]) 0]
  let b : Bus := .mk false [.mk (.sig [.noAssigned]) 0, .mk (.sig [.noAssigned, .noAssigned]) 0, .mk (.bus [n]) 0]
  [.mk (.sig [.noAssigned, .noAssigned, .noAssigned]) 0, .mk (.bus [b, b]) 0]

/-- `b[0].y[1]`, `a[1..2]`, `b[1]`, `b[0].n`, `b[0].x`, `b[0].y[0]`, `a[0]`. -/
def feed : List Op :=
  [⟨1, .under 0 1 (.here 1 1), .assigned⟩, ⟨0, .here 1 2, .assigned⟩, ⟨1, .here 1 1, .assigned⟩,
   ⟨1, .under 0 2 (.here 0 1), .assigned⟩, ⟨1, .under 0 0 (.here 0 1), .assigned⟩, ⟨1, .under 0 1 (.here 0 1), .assigned⟩,
   ⟨0, .here 0 1, .assigned⟩]

example : SolidFs shape ∧ Plain feed := by
  refine ⟨by simp [shape, SolidFs, SolidF, SolidBs, SolidB, flatFs, flatF], ?_⟩
  intro a ha
  simp only [feed, List.mem_cons, List.not_mem_nil, or_false] at ha
  rcases ha with rfl | rfl | rfl | rfl | rfl | rfl | rfl <;> simp [Path.size]

example : (match run feed (initFs shape) with | .ok c => !hasOpen c | _ => false) = true ∧
    (match run feed.dropLast (initFs shape) with | .ok c => hasOpen c | _ => false) = true ∧
    (match run (feed ++ [⟨1, .under 1 0 (.here 0 1), .assigned⟩]) (initFs shape) with
      | .error .multiple => true | _ => false) = true := by decide +kernel

example : (match runDelayed feed [] (initFs shape) with | .ok c => !hasOpen c | _ => false) = true := by decide +kernel

/-! ## Failures -/

/-- Input `a[2]`: `if (x == 1) { c.a[0] <-- 1; } else { c.a[0] <-- 2; }` is counted twice.  Outputs of `c` may be read and the
template is accepted, but `c.a[1]` is never assigned. -/
theorem C70_branches_violated :
    ∃ (sh : List Field) (ops : List Op) (c : List Field), SolidFs sh ∧ (∀ a ∈ ops, a.path.size ≠ 0) ∧
      run ops (initFs sh) = .ok c ∧ hasOpen c = false ∧ AState.noAssigned ∈ flatFs c := by
  refine ⟨[.mk (.sig [.noAssigned, .noAssigned]) 0],
    [⟨0, .here 0 1, .mightAssigned [(1, true)]⟩, ⟨0, .here 0 1, .mightAssigned [(1, false)]⟩],
    [.mk (.sig [.assigned, .noAssigned]) 0], by simp [SolidFs, SolidF], by simp [Path.size], ?_, by decide, ?_⟩
  · rfl
  · simp [flatFs, flatF]

/-- Input `a[2][2]`, the same for `a[0][0]`, then `c.a[0][1] <-- 3; c.a[1] <-- r;`: every signal is assigned once on every path,
but the last assignment lowers the counter 1 by 2. -/
theorem C70_underflow_violated :
    ∃ (sh : List Field) (ops : List Op), SolidFs sh ∧ (∀ a ∈ ops, a.path.size ≠ 0) ∧ run ops (initFs sh) = .error .underflow ∧
      ops.map (fun o => (o.path, o.new)) = [(.here 0 1, .mightAssigned [(1, true)]), (.here 0 1, .mightAssigned [(1, false)]),
        (.here 1 1, .assigned), (.here 2 2, .assigned)] :=
  ⟨[.mk (.sig [.noAssigned, .noAssigned, .noAssigned, .noAssigned]) 0],
    [⟨0, .here 0 1, .mightAssigned [(1, true)]⟩, ⟨0, .here 0 1, .mightAssigned [(1, false)]⟩, ⟨0, .here 1 1, .assigned⟩,
      ⟨0, .here 2 2, .assigned⟩], by simp [SolidFs, SolidF], by simp [Path.size], rfl, rfl⟩

/-- Input buses `b[2]` with a signal `f` and an empty array `e`: `c.b[0].f <== 1; c.b[0].e <== z;` is counted twice, `c.b[1].f`
is never assigned.  No conditions are involved. -/
theorem C70_empty_violated :
    ∃ (sh : List Field) (ops : List Op) (c : List Field), SolidFs sh ∧ (∀ a ∈ ops, a.new = .assigned) ∧
      run ops (initFs sh) = .ok c ∧ hasOpen c = false ∧ AState.noAssigned ∈ flatFs c := by
  let b : Bus := .mk false [.mk (.sig [.noAssigned]) 0, .mk (.sig []) 0]
  refine ⟨[.mk (.bus [b, b]) 0], [⟨0, .under 0 0 (.here 0 1), .assigned⟩, ⟨0, .under 0 1 (.here 0 0), .assigned⟩],
    [.mk (.bus [.mk true [.mk (.sig [.assigned]) 0, .mk (.sig []) 0], .mk false [.mk (.sig [.noAssigned]) 1, .mk (.sig []) 0]]) 0],
    by simp [b, SolidFs, SolidF, SolidBs, SolidB, flatFs, flatF], by simp, rfl, by decide, ?_⟩
  simp [flatFs, flatF, flatBs, flatB]

/-- Input bus `b` with a signal `f`: `if (x == 1) { c.b <-- p; c.b.f <-- 2; } else { if (y == 1) { c.b <-- q; } }`.  The double
assignment of `c.b.f` is refused, but accepted when another input with a tag has not been assigned before: the assignments are then
carried out in the order `c.b`, `c.b`, `c.b.f`. -/
theorem C70_delayed_violated :
    ∃ (sh : List Field) (ops : List Op) (c : List Field), SolidFs sh ∧ (∀ a ∈ ops, a.path.size ≠ 0) ∧
      ops.map (fun o => (o.path, o.new)) = [(.here 0 1, .mightAssigned [(1, true)]),
        (.under 0 0 (.here 0 1), .mightAssigned [(1, true)]), (.here 0 1, .mightAssigned [(1, false), (2, true)])] ∧
      run ops (initFs sh) = .error .multiple ∧ runDelayed ops [] (initFs sh) = .ok c := by
  refine ⟨[.mk (.bus [.mk false [.mk (.sig [.noAssigned]) 0]]) 0],
    [⟨0, .here 0 1, .mightAssigned [(1, true)]⟩, ⟨0, .under 0 0 (.here 0 1), .mightAssigned [(1, true)]⟩,
      ⟨0, .here 0 1, .mightAssigned [(1, false), (2, true)]⟩],
    [.mk (.bus [.mk false [.mk (.sig [.mightAssigned [(1, true)]]) 0]]) 0],
    by simp [SolidFs, SolidF, SolidBs, SolidB, flatFs, flatF], by simp [Path.size], rfl, rfl, rfl⟩

end Verif.Props.Fill
