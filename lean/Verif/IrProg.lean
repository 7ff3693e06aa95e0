import Verif.IrStmt

/-!
# Simulation of functions and templates
-/

set_option linter.unusedSimpArgs false
set_option linter.unusedVariables false

namespace Verif.Ir

variable {K : Type}

/-! ## Lists -/

theorem find_forall₂ {α β : Type} {R : α → β → Prop} {na : α → Name} {nb : β → Name} (hn : ∀ a b, R a b → na a = nb b) {f : Name} :
    ∀ {as : List α} {bs : List β}, List.Forall₂ R as bs → ∀ {a}, as.find? (fun a => na a = f) = some a →
      ∃ b, bs.find? (fun b => nb b = f) = some b ∧ R a b
  | _, _, .nil, a, h => by simp at h
  | x :: as, y :: bs, .cons h hr, a, hf => by
    rw [List.find?_cons] at hf ⊢
    by_cases hx : na x = f
    · simp only [hx, decide_true, Option.some.injEq] at hf
      subst hf
      exact ⟨y, by simp [← hn _ _ h, hx], h⟩
    · simp only [hx, decide_false] at hf
      obtain ⟨b, h1, h2⟩ := find_forall₂ hn hr hf
      exact ⟨b, by simp [← hn _ _ h, hx, h1], h2⟩

theorem forall₂_trans {α β γ : Type} {R : α → β → Prop} {Q : β → γ → Prop} : ∀ {as : List α} {bs : List β} {cs : List γ},
    List.Forall₂ R as bs → List.Forall₂ Q bs cs → List.Forall₂ (fun a c => ∃ b ∈ bs, R a b ∧ Q b c) as cs
  | _, _, _, .nil, .nil => .nil
  | _, b :: bs, _, .cons h hr, .cons h' hr' => .cons ⟨b, by simp, h, h'⟩
      ((forall₂_trans hr hr').imp fun a c ⟨b', hb, r⟩ => ⟨b', List.mem_cons_of_mem _ hb, r⟩)

theorem mem_forall₂ {α β : Type} {R : α → β → Prop} : ∀ {as : List α} {bs : List β}, List.Forall₂ R as bs → ∀ {b}, b ∈ bs →
    ∃ a ∈ as, R a b
  | _, _, .nil, b, h => by simp at h
  | x :: as, y :: bs, .cons h hr, b, hb => by
    rw [List.mem_cons] at hb
    rcases hb with rfl | hb
    · exact ⟨x, by simp, h⟩
    · obtain ⟨a, h1, h2⟩ := mem_forall₂ hr hb
      exact ⟨a, List.mem_cons_of_mem _ h1, h2⟩

theorem nodup_inj {α β : Type} {f : α → β} : ∀ {l : List α}, (l.map f).Nodup → ∀ {a b}, a ∈ l → b ∈ l → f a = f b → a = b
  | [], _, a, b, h, _, _ => by simp at h
  | x :: l, hn, a, b, ha, hb, he => by
    rw [List.map_cons, List.nodup_cons] at hn
    rw [List.mem_cons] at ha hb
    rcases ha with rfl | ha <;> rcases hb with rfl | hb
    · rfl
    · exact absurd (by rw [he]; exact List.mem_map_of_mem hb) hn.1
    · exact absurd (by rw [← he]; exact List.mem_map_of_mem ha) hn.1
    · exact nodup_inj hn.2 ha hb he

theorem arenaOf_mem {fs : List FnCode} (hn : (fs.map (·.name)).Nodup) {c : FnCode} (hc : c ∈ fs) : arenaOf fs c.name = some c.vars := by
  unfold arenaOf
  cases h : fs.reverse.find? (fun x => decide (x.name = c.name)) with
  | none =>
    rw [List.find?_eq_none] at h
    exact absurd (by simp) (h c (by simpa using hc))
  | some c' =>
    have h1 := List.mem_of_find?_eq_some h
    have h2 := List.find?_some h
    simp only [decide_eq_true_eq] at h2
    have : c' = c := nodup_inj hn (by simpa using h1) hc h2
    rw [this]; rfl

/-! ## Compiled functions -/

theorem initParams_keep : ∀ (ps : List (Name × List Nat)) (t : TSt), (initParams ps t).consts = t.consts ∧ (initParams ps t).strings = t.strings
  | [], t => ⟨rfl, rfl⟩
  | (x, d) :: ps, t => by
    have := initParams_keep ps { t with
      env := declare x ⟨t.stack, d, d.foldl (· * ·) 1, false⟩ t.env
      stack := t.stack + d.foldl (· * ·) 1
      depth := max t.depth (t.stack + d.foldl (· * ·) 1) }
    exact this

theorem compileFn_spec {g : Fn} {C C' : List Nat} {T T' : List String} {fc : FnCode} (h : compileFn g C T = some (fc, C', T')) :
    fc.name = g.name ∧ C <+: C' ∧ T <+: T' ∧
      ∃ code t, trS (fun _ => none) g.body (initParams g.params ⟨[[]], 0, 0, C, T⟩) = some (code, t) ∧ reduceS code = some fc.body ∧
        t.depth = fc.vars ∧ t.consts = C' ∧ t.strings = T' := by
  unfold compileFn at h
  split at h
  · cases h
  · rename_i code t ht
    split at h
    · cases h
    · rename_i code' hr
      cases h
      have hs := trS_stat _ ht
      have hk := initParams_keep g.params ⟨[[]], 0, 0, C, T⟩
      exact ⟨rfl, by have := hs.consts; rw [hk.1] at this; exact this, by have := hs.strings; rw [hk.2] at this; exact this, code, t, ht, hr, rfl, rfl, rfl⟩

theorem compileFns_spec : ∀ {gs : List Fn} {C C' : List Nat} {T T' : List String} {cs : List FnCode},
    compileFns gs C T = some (cs, C', T') → C <+: C' ∧ T <+: T' ∧
      List.Forall₂ (fun g fc => ∃ C0 C1 T0 T1, compileFn g C0 T0 = some (fc, C1, T1) ∧ C1 <+: C' ∧ T1 <+: T') gs cs
  | [], C, C', T, T', cs, h => by
    simp only [compileFns, Option.some.injEq, Prod.mk.injEq] at h
    obtain ⟨rfl, rfl, rfl⟩ := h
    exact ⟨List.prefix_refl _, List.prefix_refl _, .nil⟩
  | g :: gs, C, C', T, T', cs, h => by
    simp only [compileFns] at h
    split at h
    · cases h
    · rename_i c C1 T1 hc
      split at h
      · cases h
      · rename_i cs' C2 T2 hr
        cases h
        have h1 := compileFn_spec hc
        obtain ⟨h2, h3, h4⟩ := compileFns_spec hr
        exact ⟨h1.2.1.trans h2, h1.2.2.1.trans h3, .cons ⟨C, C1, T, T1, hc, h2, h3⟩ h4⟩

theorem arenaFns_spec {A : Name → Option Nat} : ∀ {cs cs' : List FnCode}, arenaFns A cs = some cs' →
    List.Forall₂ (fun c c' => c'.name = c.name ∧ c'.vars = c.vars ∧ arenaS A c.body = some c'.body) cs cs'
  | [], cs', h => by
    simp only [arenaFns, Option.some.injEq] at h
    subst h; exact .nil
  | c :: cs, cs', h => by
    simp only [arenaFns] at h
    split at h
    · rename_i b r h1 h2
      cases h
      exact .cons ⟨rfl, rfl, h1⟩ (arenaFns_spec h2)
    · cases h

theorem arenaTmpls_spec {A : Name → Option Nat} : ∀ {cs cs' : List TmplCode}, arenaTmpls A cs = some cs' →
    List.Forall₂ (fun c c' => c'.sigs = c.sigs ∧ c'.vars = c.vars ∧ arenaS A c.body = some c'.body) cs cs'
  | [], cs', h => by
    simp only [arenaTmpls, Option.some.injEq] at h
    subst h; exact .nil
  | c :: cs, cs', h => by
    simp only [arenaTmpls] at h
    split at h
    · rename_i b r h1 h2
      cases h
      exact .cons ⟨rfl, rfl, h1⟩ (arenaTmpls_spec h2)
    · cases h

/-- Parameters. -/
theorem initParams_sim : ∀ {ps : List (Name × List Nat)} {vs : List (Val K)} {ks : List K} {acc fr : List (Name × Ent K)} {t : TSt}
    {m : Mem K} {sigs : Nat}, bindParams ps vs acc = some fr → RepL vs ks → Mt m [acc] t.env → Lay sigs t →
    (∀ (i : Nat) k, ks[i]? = some k → m.lv (t.stack + i) = k) →
    Mt m [fr] (initParams ps t).env ∧ Lay sigs (initParams ps t) ∧ (initParams ps t).stack = t.stack + ks.length
  | [], [], ks, acc, fr, t, m, sigs, hb, hr, hm, hl, hk => by
    simp only [bindParams, Option.some.injEq] at hb
    subst hb
    cases hr
    exact ⟨hm, hl, rfl⟩
  | [], _ :: _, _, _, _, _, _, _, hb, _, _, _, _ => by simp [bindParams] at hb
  | _ :: _, [], _, _, _, _, _, _, hb, _, _, _, _ => by simp [bindParams] at hb
  | (x, d) :: ps, v :: vs, ks, acc, fr, t, m, sigs, hb, hr, hm, hl, hk => by
    simp only [bindParams] at hb
    split at hb
    · rename_i hd
      cases hr with
      | cons hv hvs =>
        rename_i k1 k2
        have hlen := hv.len
        rw [hd] at hlen
        have hsz := foldl_prod d
        have hm' := mt_declare (x := x) (ent := ⟨false, v⟩) (info := ⟨t.stack, d, d.foldl (· * ·) 1, false⟩) hm
          ⟨rfl, hd, hsz, by rw [← hd]; exact hv.pos, by
            intro q hq k hk'
            simp only [Mem.get, Bool.false_eq_true, if_false]
            apply hk
            have := hv.el q (by rw [hd]; exact hq) k hk'
            rw [hd] at this
            exact prefix_get (List.prefix_append _ _) this⟩
        have hm'' : Mt m [(x, ⟨false, v⟩) :: acc] (declare x ⟨t.stack, d, d.foldl (· * ·) 1, false⟩ t.env) := hm'
        have ih := initParams_sim hb hvs hm'' (hl.decl x d (d.foldl (· * ·) 1) t.consts) (by
          intro i k hi
          have := hk (k1.length + i) k (by rw [List.getElem?_append_right (by omega)]; simpa using hi)
          simp only [hsz]
          rw [hlen] at this
          rw [← this, Nat.add_assoc])
        refine ⟨ih.1, ih.2.1, ?_⟩
        have := ih.2.2
        simp only [initParams]
        rw [this]
        simp only [List.length_append, hlen, hsz]
        omega
    · cases hb

/-- What is asked of a program. -/
structure ProgOk (P : List Fn) (c : Code) : Prop where
  names : (P.map (·.name)).Nodup
  shape : ∀ g ∈ P, g.body.ok (rdimsOf P) = true
  logs : ∀ g ∈ P, ∀ f ∈ g.body.logCalls, ∀ fc ∈ c.fns, fc.name = f → fc.vars ≤ 200

theorem lay_empty (sigs : Nat) (C : List Nat) (T : List String) : Lay sigs ⟨[[]], 0, 0, C, T⟩ := by
  refine ⟨?_, ?_, ?_, Nat.le_refl _, by simp⟩ <;> simp [entries]

theorem call_sim {S : Sem K} (L : Laws S) (chk : Bool) {ts : List Tmpl} {P : List Fn} {c : Code} (hc : compile ts P = some c)
    (hp : ProgOk P c) (junk : Nat → K) : ∀ (n : Nat) (f : Name) (arena : Nat), (∀ fc ∈ c.fns, fc.name = f → fc.vars ≤ arena) →
      FSim (rdimsOf P) (callN S chk P n) (icall S chk c junk n) f arena := by
  unfold compile at hc
  split at hc
  · cases hc
  · rename_i ts' C T hts
    split at hc
    · cases hc
    · rename_i fs' C' T' hfs
      split at hc
      · rename_i fs'' ts'' haf hat
        cases hc
        obtain ⟨_, _, hF⟩ := compileFns_spec hfs
        have hA := arenaFns_spec haf
        have hnames : fs'.map (·.name) = P.map (·.name) := by
          have : List.Forall₂ (fun (g : Fn) (fc : FnCode) => g.name = fc.name) P fs' := hF.imp (fun g fc ⟨_, _, _, _, h, _⟩ => (compileFn_spec h).1.symm)
          clear hF hA haf hfs hp hat
          induction this with
          | nil => rfl
          | cons h _ ih => simp [h, ih]
        have hnd : (fs'.map (·.name)).Nodup := by rw [hnames]; exact hp.names
        have hboth := forall₂_trans hF hA
        intro n
        induction n with
        | zero =>
          intro f arena _ vs ks _
          simp only [callN, icall]
          exact sim_err _
        | succ n ih =>
          intro f arena har vs ks hrep
          simp only [callN, icall]
          cases hg : fnOf P f with
          | none => exact sim_stuck
          | some g =>
            simp only
            obtain ⟨fc', hfind, fc, hmem, ⟨C0, C1, T0, T1, hcomp, hC1, hT1⟩, hn', hv', hbody⟩ :=
              find_forall₂ (na := fun g : Fn => g.name) (nb := fun c : FnCode => c.name) (f := f)
                (R := fun g c' => ∃ b ∈ fs', (∃ C0 C1 T0 T1, compileFn g C0 T0 = some (b, C1, T1) ∧ C1 <+: C' ∧ T1 <+: T') ∧
                  c'.name = b.name ∧ c'.vars = b.vars ∧ arenaS (arenaOf fs') b.body = some c'.body)
                (fun a b ⟨_, _, ⟨_, _, _, _, h, _⟩, hn, _⟩ => by rw [hn]; exact (compileFn_spec h).1.symm) hboth hg
            have hgmem : g ∈ P := List.mem_of_find?_eq_some hg
            have hgname : g.name = f := by simpa using List.find?_some hg
            obtain ⟨hname, _, _, code, t, htr, hred, hdep, hcs, hst⟩ := compileFn_spec hcomp
            cases hb : bindParams g.params vs [] with
            | none => exact sim_stuck
            | some fr =>
              simp only [hfind]
              have hfcname : fc'.name = f := by rw [hn', hname, hgname]
              have hvars : fc.vars ≤ arena := by rw [← hv']; exact har fc' (List.mem_of_find?_eq_some hfind) hfcname
              have hini := initParams_sim (m := ⟨over junk 0 ks, junk⟩) (sigs := 0) hb hrep
                (t := ⟨[[]], 0, 0, C0, T0⟩) (.cons .nil .nil) (lay_empty _ _ _) (by
                  intro i k hi
                  exact over_get junk 0 ks i k hi)
              have hstat := trS_stat _ htr
              have hlen : ks.length ≤ arena := by
                have h1 := hini.2.1.dep
                have h2 := hstat.depth
                have h3 := hini.2.2
                simp only [Nat.zero_add] at h3
                omega
              rw [if_pos hlen, run_passes hred hbody]
              have hall : ∀ f, FSim (rdimsOf P) (callN S chk P n) (icall S chk ⟨fs'', ts'', C', T'⟩ junk n) f ((arenaOf fs' f).getD 0) := by
                intro f'
                apply ih
                intro fc1 h1 h2
                obtain ⟨b, hb1, hb2⟩ := mem_forall₂ hA h1
                rw [← h2, hb2.1, arenaOf_mem hnd hb1, Option.getD_some, hb2.2.1]
              have key := trS_sim (chk := chk) (n := n) L (cfg := ⟨arena, 0, C', T'⟩) hall g.body (hp.shape g hgmem)
                (fun f' hf' => ih f' 200 (fun fc1 h1 h2 => hp.logs g hgmem f' hf' fc1 h1 h2)) htr hini.2.1
                (by simp only; omega) (by rw [hcs]; exact hC1) (by rw [hst]; exact hT1) hini.1
              rcases key.cases with d1 | ⟨er, _, d1, d2⟩ | ⟨x', y', evs'', d1, d2, hr'⟩ | ⟨x', y', evs'', v, w, d1, d2, hq⟩
              · simp only [d1]; exact sim_stuck
              · simp only [d1, d2]; exact sim_err er
              · simp only [d1]; exact sim_stuck
              · simp only [d1, d2]
                by_cases hdim : v.dims = g.rdims
                · rw [if_pos hdim]
                  exact sim_ok ⟨by simp [rdimsOf, hg, hdim], hq.1, hq.2⟩
                · rw [if_neg hdim]; exact sim_stuck
      · cases hc

/-! ## Templates -/

theorem positions_mem : ∀ {d q : List Nat}, Full d q → q ∈ positions d
  | [], q, h => by
    have := h.2
    simp only [List.length_nil, List.length_eq_zero_iff] at this
    simp [positions, this]
  | x :: d, [], h => by simp [Full] at h
  | x :: d, i :: q, h => by
    obtain ⟨h1, h2⟩ := h
    simp only [within, Bool.and_eq_true, decide_eq_true_eq] at h1
    simp only [positions, List.mem_flatMap, List.mem_range, List.mem_map]
    exact ⟨i, h1.1, q, positions_mem ⟨h1.2, by simpa using h2⟩, rfl⟩

theorem positions_get {d q : List Nat} (h : Full d q) : (positions d)[off d q]? = some q := by
  obtain ⟨j, hj⟩ := List.getElem?_of_mem (positions_mem h)
  rwa [positions_at hj]

theorem over_over (f : Nat → K) (a : Nat) (k : K) (ks : List K) : over (over f a [k]) (a + 1) ks = over f a (k :: ks) := by
  funext b
  unfold over
  by_cases h1 : a + 1 ≤ b
  · have e1 : b - a = (b - (a + 1)) + 1 := by omega
    have e2 : a ≤ b := by omega
    simp only [h1, e2, if_true, e1, List.getElem?_cons_succ, List.getElem?_nil]
  · by_cases h2 : a = b
    · subst h2
      simp
    · have : ¬ a ≤ b := by omega
      simp only [h1, this, if_false]

theorem over_nil (f : Nat → K) (a : Nat) : over f a [] = f := by
  funext b; unfold over; split <;> simp

theorem constStores_run {S : Sem K} {chk : Bool} {cfg : Cfg} {F : IFns K} {n : Nat} {ar : Name → Nat} {addr : Nat} :
    ∀ {vs : List Nat} {i : Nat} {C C' : List Nat} {code : IS}, constStores addr i vs C = (code, C') → C <+: C' ∧
      (C' <+: cfg.consts → addr + i + vs.length ≤ cfg.lvars → ∀ m : Mem K,
        run S chk cfg F n (setS ar code) m = .ok (⟨over m.lv (addr + i) (vs.map S.lit), m.sg⟩, [], none))
  | [], i, C, C', code, h => by
    simp only [constStores, Prod.mk.injEq] at h
    obtain ⟨rfl, rfl⟩ := h
    refine ⟨List.prefix_refl _, fun _ _ m => ?_⟩
    simp only [setS, run, List.map_nil, over_nil]
  | v :: vs, i, C, C', code, h => by
    simp only [constStores] at h
    rcases hr : constStores addr (i + 1) vs (intern C v).2 with ⟨code', C1⟩
    rw [hr] at h
    simp only [Prod.mk.injEq] at h
    obtain ⟨rfl, rfl⟩ := h
    obtain ⟨h1, h2⟩ := constStores_run (S := S) (chk := chk) (cfg := cfg) (F := F) (n := n) (ar := ar) hr
    have h3 := intern_spec C v
    refine ⟨h3.1.trans h1, fun hC hb m => ?_⟩
    simp only [List.length_cons] at hb
    have hk := prefix_get (h1.trans hC) h3.2
    have hw : writeN cfg m false ((addr : Int) + (i : Int)) [S.lit v] = some ⟨over m.lv (addr + i) [S.lit v], m.sg⟩ := by
      unfold writeN
      have e : ((addr : Int) + (i : Int)).toNat = addr + i := by omega
      rw [e, if_pos ⟨by omega, by simp [Cfg.size]; omega⟩]
      rfl
    simp only [setS, setI, run, ev, doComp2, hk, takeN, copied, List.length_singleton, Nat.min_self, gt_iff_lt, Nat.lt_irrefl, if_false,
      Nat.le_refl, if_true, List.take_succ_cons, List.take_zero, hw]
    rw [h2 hC (by omega), List.map_cons, ← over_over m.lv (addr + i) (S.lit v) (vs.map S.lit)]
    simp only [Nat.add_assoc, List.append_nil, List.nil_append]

/-- Parameters of templates. -/
theorem initConsts_sim {S : Sem K} {chk : Bool} {cfg : Cfg} {F : IFns K} {n : Nat} {ar : Name → Nat} :
    ∀ {cs : List (Name × List Nat × List Nat)} {t t' : TSt} {code : IS}, initConsts cs t = (code, t') →
      t.consts <+: t'.consts ∧ t'.strings = t.strings ∧ t.depth ≤ t'.depth ∧
      (∀ sigs, Lay sigs t → Lay sigs t') ∧ (∀ x, x ∉ cs.map (·.1) → find x t'.env = find x t.env) ∧
      (t'.consts <+: cfg.consts → t'.depth ≤ cfg.lvars → (∀ e ∈ cs, e.2.2.length = prod e.2.1 ∧ 0 ∉ e.2.1) →
        ∀ (m : Mem K) (acc : List (Name × Ent K)), Lay cfg.sigs t → Mt m [acc] t.env →
          ∃ m', run S chk cfg F n (setS ar code) m = .ok (m', [], none) ∧
            Mt m' [(cs.map fun (x, d, vs) => (x, (⟨false, constVal S d vs⟩ : Ent K))).reverse ++ acc] t'.env)
  | [], t, t', code, h => by
    simp only [initConsts, Prod.mk.injEq] at h
    obtain ⟨rfl, rfl⟩ := h
    exact ⟨List.prefix_refl _, rfl, Nat.le_refl _, fun _ h => h, fun _ _ => rfl, fun _ _ _ m acc _ hm => ⟨m, rfl, by simpa using hm⟩⟩
  | (x, d, vs) :: cs, t, t', code, h => by
    simp only [initConsts] at h
    rcases hs : constStores t.stack 0 vs t.consts with ⟨code1, C1⟩
    rw [hs] at h
    simp only at h
    rcases hr : initConsts cs { t with
      env := declare x ⟨t.stack, d, d.foldl (· * ·) 1, false⟩ t.env
      stack := t.stack + d.foldl (· * ·) 1
      depth := max t.depth (t.stack + d.foldl (· * ·) 1)
      consts := C1 } with ⟨code2, t2⟩
    rw [hr] at h
    simp only [Prod.mk.injEq] at h
    obtain ⟨rfl, rfl⟩ := h
    obtain ⟨s1, s2⟩ := constStores_run (S := S) (chk := chk) (cfg := cfg) (F := F) (n := n) (ar := ar) hs
    obtain ⟨r1, r2, r3, r4, r6, r5⟩ := initConsts_sim (S := S) (chk := chk) (cfg := cfg) (F := F) (n := n) (ar := ar) hr
    simp only at r1 r2 r3 r4 r5 r6
    refine ⟨s1.trans r1, r2, by omega, fun sigs hl => r4 sigs (hl.decl x d _ _), ?_, ?_⟩
    · intro y hy
      simp only [List.map_cons, List.mem_cons, not_or] at hy
      rw [r6 y hy.2]
      cases t.env with
      | nil => rfl
      | cons f fs =>
        have : ¬ x = y := fun e => hy.1 e.symm
        simp only [declare, find, findIn, this, if_false]
    · intro hC hd hok m acc hl hm
      have hx := hok _ (List.mem_cons_self)
      simp only at hx
      have hsz := foldl_prod d
      have hrun := s2 (r1.trans hC) (by omega) m
      simp only [Nat.add_zero] at hrun
      have honly : Only m ⟨over m.lv t.stack (vs.map S.lit), m.sg⟩ ⟨t.stack, d, d.foldl (· * ·) 1, false⟩ := by
        intro s a ha
        cases s with
        | true => rfl
        | false =>
          simp only [Mem.get, Bool.false_eq_true, if_false]
          have := ha rfl
          simp only at this
          exact over_out _ _ _ _ (by simp only [List.length_map]; omega)
      have hm1 : Mt ⟨over m.lv t.stack (vs.map S.lit), m.sg⟩ [acc] t.env := by
        apply frames_only honly hm
        intro i hi hsig
        simp only at hsig
        exact Or.inl (hl.var i hi hsig)
      have hcell : CellR ⟨over m.lv t.stack (vs.map S.lit), m.sg⟩ (⟨false, constVal S d vs⟩ : Ent K) ⟨t.stack, d, d.foldl (· * ·) 1, false⟩ := by
        refine ⟨rfl, rfl, hsz, hx.2, ?_⟩
        intro q hq k hk
        simp only [constVal, Option.map_eq_some_iff] at hk
        obtain ⟨⟨q', v⟩, hf, rfl⟩ := hk
        have h1 := List.mem_of_find?_eq_some hf
        have h2 := List.find?_some hf
        simp only [decide_eq_true_eq] at h2
        subst h2
        obtain ⟨j, hj⟩ := List.getElem?_of_mem h1
        rw [List.getElem?_zip_eq_some] at hj
        rw [positions_at hj.1]
        simp only [Mem.get, Bool.false_eq_true, if_false]
        apply over_get
        rw [List.getElem?_map, hj.2]; rfl
      have hm2 : Mt ⟨over m.lv t.stack (vs.map S.lit), m.sg⟩ [(x, (⟨false, constVal S d vs⟩ : Ent K)) :: acc]
          (declare x ⟨t.stack, d, d.foldl (· * ·) 1, false⟩ t.env) := mt_declare hm1 hcell
      obtain ⟨m', hm'1, hm'2⟩ := r5 hC hd (fun e he => hok e (List.mem_cons_of_mem _ he)) _ _ (hl.decl x d _ _) hm2
      refine ⟨m', ?_, ?_⟩
      · rw [setS_append, run_append]
        simp only [run, hrun, hm'1, List.append_nil]
      · simpa using hm'2

/-- Elements of signals. -/
def cellsOf (ps : List (Name × List Nat)) : List (Name × List Nat) := ps.flatMap fun (x, d) => (positions d).map fun q => (x, q)

/-- Signals of templates. -/
theorem initSignals_sim : ∀ {ps : List (Name × List Nat)} {n n' : Nat} {t t' : TSt}, initSignals ps n t = (n', t') →
      (t'.consts = t.consts ∧ n' = n + (cellsOf ps).length) ∧ t'.strings = t.strings ∧ t'.depth = t.depth ∧
      (Lay n t → Lay n' t') ∧ (∀ x, x ∉ ps.map (·.1) → find x t'.env = find x t.env) ∧
      ((∀ e ∈ ps, 0 ∉ e.2) → ∀ (m : Mem K) (vals : Name → List Nat → Option K) (acc : List (Name × Ent K)), Mt m [acc] t.env →
        (∀ (i : Nat) x q k, (cellsOf ps)[i]? = some (x, q) → vals x q = some k → m.sg (n + i) = k) →
          Mt m [(ps.map fun (x, d) => (x, (⟨true, ⟨d, vals x⟩⟩ : Ent K))).reverse ++ acc] t'.env) ∧
      (t.env ≠ [] → (ps.map (·.1)).Nodup → ∀ (i : Nat) x q, (cellsOf ps)[i]? = some (x, q) →
        ∃ info, find x t'.env = some info ∧ info.sig = true ∧ Full info.dims q ∧ n + i = info.addr + off info.dims q)
  | [], n, n', t, t', h => by
    simp only [initSignals, Prod.mk.injEq] at h
    obtain ⟨rfl, rfl⟩ := h
    exact ⟨⟨rfl, rfl⟩, rfl, rfl, fun h => h, fun _ _ => rfl, fun _ m vals acc hm _ => by simpa using hm, fun _ _ i x q h => by simp [cellsOf] at h⟩
  | (x, d) :: ps, n, n', t, t', h => by
    simp only [initSignals] at h
    obtain ⟨r1, r2, r3, r4, r5, r6, r7⟩ := initSignals_sim h
    simp only at r1 r2 r3 r4 r5 r6 r7
    have hsz := foldl_prod d
    have hlen := positions_length d
    have hcells : cellsOf ((x, d) :: ps) = (positions d).map (fun q => (x, q)) ++ cellsOf ps := by simp [cellsOf]
    refine ⟨⟨r1.1, by rw [r1.2, hcells, List.length_append, List.length_map, hlen, hsz]; omega⟩, r2, r3, ?_, ?_, ?_, ?_⟩
    · intro hl
      apply r4
      refine ⟨?_, ?_, ?_, hl.dep, declare_ne hl.ne⟩
      · rw [entries_declare hl.ne, List.pairwise_cons]
        refine ⟨fun i hi e => ?_, hl.pw⟩
        right
        exact hl.sg i hi e.symm
      · rw [entries_declare hl.ne]
        intro i hi hs
        rw [List.mem_cons] at hi
        rcases hi with rfl | hi
        · cases hs
        · exact hl.var i hi hs
      · rw [entries_declare hl.ne]
        intro i hi hs
        rw [List.mem_cons] at hi
        rcases hi with rfl | hi
        · exact Nat.le_refl _
        · have := hl.sg i hi hs; omega
    · intro y hy
      simp only [List.map_cons, List.mem_cons, not_or] at hy
      rw [r5 y hy.2]
      cases t.env with
      | nil => rfl
      | cons f fs =>
        have : ¬ x = y := fun e => hy.1 e.symm
        simp only [declare, find, findIn, this, if_false]
    · intro hok m vals acc hm hv
      have hd := hok _ (List.mem_cons_self)
      simp only at hd
      rw [hcells] at hv
      have hm2 : Mt m [(x, (⟨true, ⟨d, vals x⟩⟩ : Ent K)) :: acc] (declare x ⟨n, d, d.foldl (· * ·) 1, true⟩ t.env) := by
        refine mt_declare hm ⟨rfl, rfl, hsz, hd, ?_⟩
        intro q hq k hk
        simp only [Mem.get, if_true]
        refine hv _ x q k ?_ hk
        have h1 := positions_get hq
        have h2 : off d q < prod d := off_lt hq
        rw [List.getElem?_append_left (by simp only [List.length_map, hlen]; exact h2), List.getElem?_map, h1]; rfl
      have := r6 (fun e he => hok e (List.mem_cons_of_mem _ he)) m vals _ hm2 (by
        intro i y q k hi hk
        rw [hsz, Nat.add_assoc]
        refine hv _ y q k ?_ hk
        rw [List.getElem?_append_right (by simp; omega)]
        simp only [List.length_map, hlen]
        rw [Nat.add_sub_cancel_left]; exact hi)
      simpa using this
    · intro hne hnd i y q hi
      rw [List.map_cons, List.nodup_cons] at hnd
      rw [hcells] at hi
      by_cases hlt : i < prod d
      · rw [List.getElem?_append_left (by simp; omega), List.getElem?_map, Option.map_eq_some_iff] at hi
        obtain ⟨q', hq', he⟩ := hi
        simp only [Prod.mk.injEq] at he
        obtain ⟨rfl, rfl⟩ := he
        refine ⟨⟨n, d, d.foldl (· * ·) 1, true⟩, ?_, rfl, positions_full (List.mem_of_getElem? hq'), ?_⟩
        · rw [r5 x hnd.1]
          cases henv : t.env with
          | nil => exact absurd henv hne
          | cons f fs => simp [declare, find, findIn]
        · simp only [positions_at hq']
      · rw [List.getElem?_append_right (by simp; omega)] at hi
        obtain ⟨info, h1, h2, h3, h4⟩ := r7 (declare_ne hne) hnd.2 _ y q hi
        refine ⟨info, h1, h2, h3, ?_⟩
        simp only [List.length_map, hlen] at h4
        omega

theorem forall₂_get {α β : Type} {R : α → β → Prop} : ∀ {as : List α} {bs : List β}, List.Forall₂ R as bs → ∀ {j : Nat} {a : α},
    as[j]? = some a → ∃ b, bs[j]? = some b ∧ R a b
  | _, _, .nil, j, a, h => by simp at h
  | _, _, .cons h hr, 0, a, he => by
    simp only [List.getElem?_cons_zero, Option.some.injEq] at he
    subst he
    exact ⟨_, rfl, h⟩
  | _, _, .cons h hr, j + 1, a, he => forall₂_get hr he

theorem compileTmpl_spec {p : Tmpl} {C C' : List Nat} {T T' : List String} {tc : TmplCode} (h : compileTmpl p C T = some (tc, C', T')) :
    C <+: C' ∧ T <+: T' ∧
      ∃ t0 code0 t1 code t2, initSignals p.signals 0 ⟨[[]], 0, 0, C, T⟩ = (tc.sigs, t0) ∧ initConsts p.consts t0 = (code0, t1) ∧
        trS p.tag p.body t1 = some (code, t2) ∧ reduceS (code0.append code) = some tc.body ∧
        t2.depth = tc.vars ∧ t2.consts = C' ∧ t2.strings = T' := by
  unfold compileTmpl at h
  rcases h0 : initSignals p.signals 0 ⟨[[]], 0, 0, C, T⟩ with ⟨n, t0⟩
  rw [h0] at h
  simp only at h
  rcases h1 : initConsts p.consts t0 with ⟨code0, t1⟩
  rw [h1] at h
  simp only at h
  split at h
  · cases h
  · rename_i code t ht
    split at h
    · cases h
    · rename_i code' hr
      cases h
      have hs := trS_stat _ ht
      have s0 := initSignals_sim (K := Nat) h0
      have s1 := initConsts_sim (K := Nat) (S := ⟨id, fun _ _ _ => none, fun _ _ => none, fun _ => none, fun _ => true⟩) (chk := true)
        (cfg := ⟨0, 0, [], []⟩) (F := fun _ _ _ => .error .stuck) (n := 0) (ar := fun _ => 0) h1
      refine ⟨?_, ?_, t0, code0, t1, code, t, rfl, h1, ht, hr, rfl, rfl, rfl⟩
      · have := s1.1.trans hs.consts
        rw [s0.1.1] at this
        exact this
      · have := hs.strings
        rw [s1.2.1, s0.2.1] at this
        exact this

theorem compileTmpls_spec : ∀ {ps : List Tmpl} {C C' : List Nat} {T T' : List String} {cs : List TmplCode},
    compileTmpls ps C T = some (cs, C', T') → C <+: C' ∧ T <+: T' ∧
      List.Forall₂ (fun p tc => ∃ C0 C1 T0 T1, compileTmpl p C0 T0 = some (tc, C1, T1) ∧ C1 <+: C' ∧ T1 <+: T') ps cs
  | [], C, C', T, T', cs, h => by
    simp only [compileTmpls, Option.some.injEq, Prod.mk.injEq] at h
    obtain ⟨rfl, rfl, rfl⟩ := h
    exact ⟨List.prefix_refl _, List.prefix_refl _, .nil⟩
  | g :: gs, C, C', T, T', cs, h => by
    simp only [compileTmpls] at h
    split at h
    · cases h
    · rename_i c C1 T1 hc
      split at h
      · cases h
      · rename_i cs' C2 T2 hr
        cases h
        have h1 := compileTmpl_spec hc
        obtain ⟨h2, h3, h4⟩ := compileTmpls_spec hr
        exact ⟨h1.1.trans h2, h1.2.1.trans h3, .cons ⟨C, C1, T, T1, hc, h2, h3⟩ h4⟩

/-- What is asked of a template. -/
structure TmplOk (P : List Fn) (c : Code) (p : Tmpl) : Prop where
  names : ((p.signals.map (·.1)) ++ p.consts.map (·.1)).Nodup
  dims : ∀ e ∈ p.signals, 0 ∉ e.2
  args : ∀ e ∈ p.consts, e.2.2.length = prod e.2.1 ∧ 0 ∉ e.2.1
  shape : p.body.ok (rdimsOf P) = true
  closed : p.body.closed = true
  logs : ∀ f ∈ p.body.logCalls, ∀ fc ∈ c.fns, fc.name = f → fc.vars ≤ 200

/-- Signals of the program have the values of the reference. -/
def SigR (p : Tmpl) (E : Frames K) (m : Mem K) : Prop :=
  ∀ (i : Nat) x q ent k, (sigCells p)[i]? = some (x, q) → find x E = some ent → ent.val.el q = some k → m.sg i = k

theorem tmpl_sim {S : Sem K} (L : Laws S) (chk : Bool) {ts : List Tmpl} {P : List Fn} {c : Code} (hc : compile ts P = some c)
    (hp : ProgOk P c) (junk : Nat → K) (n : Nat) {j : Nat} {p : Tmpl} (hj : ts[j]? = some p) (ht : TmplOk P c p)
    (vals : Name → List Nat → Option K) (sg : Nat → K)
    (hsg : ∀ (i : Nat) x q k, (sigCells p)[i]? = some (x, q) → vals x q = some k → sg i = k) :
    ∃ tc, c.tmpls[j]? = some tc ∧ tc.sigs = (sigCells p).length ∧
      SimS (SigR p) RQ (execTmpl S chk P n p vals) (runTmpl S chk c junk n tc sg) := by
  have hcalls := call_sim L chk hc hp junk n
  unfold compile at hc
  split at hc
  · cases hc
  · rename_i ts' C T hts
    split at hc
    · cases hc
    · rename_i fs' C' T' hfs
      split at hc
      · rename_i fs'' ts'' haf hat
        cases hc
        obtain ⟨_, _, hT⟩ := compileTmpls_spec hts
        obtain ⟨hCC, hTT, hF⟩ := compileFns_spec hfs
        have hA := arenaTmpls_spec hat
        have hAf := arenaFns_spec haf
        have hnames : fs'.map (·.name) = P.map (·.name) := by
          have : List.Forall₂ (fun (g : Fn) (fc : FnCode) => g.name = fc.name) P fs' := hF.imp (fun g fc ⟨_, _, _, _, h, _⟩ => (compileFn_spec h).1.symm)
          clear hF hA haf hfs hp hat ht hcalls hAf
          induction this with
          | nil => rfl
          | cons h _ ih => simp [h, ih]
        have hnd : (fs'.map (·.name)).Nodup := by rw [hnames]; exact hp.names
        obtain ⟨tc0, hj0, C0, C1, T0, T1, hcomp, hC1, hT1⟩ := forall₂_get hT hj
        obtain ⟨tc, hj1, hsigs, hvars, hbody⟩ := forall₂_get hA hj0
        obtain ⟨_, _, t0, code0, t1, code, t2, hi, hk, htr, hred, hdep, hcs, hst⟩ := compileTmpl_spec hcomp
        have i0 := initSignals_sim (K := K) hi
        have hcfg : (⟨tc.vars, tc.sigs, C', T'⟩ : Cfg) = ⟨tc0.vars, tc0.sigs, C', T'⟩ := by rw [hsigs, hvars]
        have hall : ∀ f, FSim (rdimsOf P) (callN S chk P n) (icall S chk ⟨fs'', ts'', C', T'⟩ junk n) f ((arenaOf fs' f).getD 0) := by
          intro f'
          apply hcalls
          intro fc1 h1 h2
          obtain ⟨b, hb1, hb2⟩ := mem_forall₂ hAf h1
          rw [← h2, hb2.1, arenaOf_mem hnd hb1, Option.getD_some, hb2.2.1]
        have k0 := initConsts_sim (S := S) (chk := chk) (cfg := ⟨tc0.vars, tc0.sigs, C', T'⟩) (F := icall S chk ⟨fs'', ts'', C', T'⟩ junk n)
          (n := n) (ar := fun f => (arenaOf fs' f).getD 0) hk
        have hstat := trS_stat _ htr
        have hlay0 : Lay tc0.sigs t0 := i0.2.2.2.1 (lay_empty _ _ _)
        have hlay1 := k0.2.2.2.1 _ hlay0
        have hm0 := i0.2.2.2.2.2.1 ht.dims ⟨junk, sg⟩ vals [] (.cons .nil .nil) (by
          intro i x q k h1 h2
          rw [Nat.zero_add]
          exact hsg i x q k h1 h2)
        obtain ⟨m1, hrun1, hm1⟩ := k0.2.2.2.2.2 ((hstat.consts.trans (by rw [hcs]; exact hC1)).trans hCC) (by have := hstat.depth; simp only; omega) ht.args _ _ hlay0 hm0
        refine ⟨tc, hj1, by rw [hsigs, i0.1.2, Nat.zero_add]; rfl, ?_⟩
        have key := trS_sim (chk := chk) (n := n) L (cfg := ⟨tc0.vars, tc0.sigs, C', T'⟩) hall p.body ht.shape
          (fun f' hf' => hcalls f' 200 (fun fc1 h1 h2 => ht.logs f' hf' fc1 h1 h2)) htr hlay1
          (by simp only; omega) (by rw [hcs]; exact hC1.trans hCC) (by rw [hst]; exact hT1.trans hTT) hm1
        rw [List.append_nil] at key
        unfold runTmpl
        simp only [hcfg]
        rw [run_passes hred hbody, setS_append, run_append]
        simp only [run, hrun1]
        unfold execTmpl tmplFrame
        rcases key.cases with d1 | ⟨er, _, d1, d2⟩ | ⟨x', y', evs, d1, d2, hr'⟩ | ⟨x', y', evs, v, w, d1, d2, hq⟩
        · rw [d1]; exact simS_stuck
        · rw [d1, d2]; cases er <;> simp [SimS]
        · rw [d1, d2]
          refine ⟨y', rfl, ?_⟩
          intro i x q ent k hcell hfind hel
          rw [(hstat.closed ht.closed).1] at hr'
          have hnames := List.nodup_append.1 ht.names
          obtain ⟨info, g1, g2, g3, g4⟩ := i0.2.2.2.2.2.2 (by simp) hnames.1 i x q hcell
          have hx : x ∈ p.signals.map (·.1) := by
            have := List.mem_of_getElem? hcell
            simp only [sigCells, List.mem_flatMap, List.mem_map] at this
            obtain ⟨⟨y, d⟩, h1, q', _, h2⟩ := this
            simp only [Prod.mk.injEq] at h2
            exact List.mem_map.2 ⟨(y, d), h1, h2.1⟩
          have hx' : x ∉ p.consts.map (·.1) := fun h => hnames.2.2 x hx x h rfl
          rcases find_rel (x := x) hr' with ⟨e1, _⟩ | ⟨ent', info', e1, e2, e3, _⟩
          · rw [hfind] at e1; cases e1
          · rw [hfind] at e1; cases e1
            rw [k0.2.2.2.2.1 x hx', g1] at e2; cases e2
            have := e3.el q g3 k hel
            rw [g2, ← g4, Nat.zero_add] at this
            simpa [Mem.get] using this
        · rw [d1, d2]; exact ⟨y', w, by simp, hq⟩
      · cases hc

end Verif.Ir
