import Verif.Ir
import Mathlib.Data.List.Forall2
import Mathlib.Tactic.Ring
import Mathlib.Tactic.Linarith

/-!
# Lemmas on translation: arrays, memory, scopes
-/

set_option linter.unusedSimpArgs false
set_option linter.unusedVariables false

namespace Verif.Ir

variable {K : Type}

/-! ## Positions and offsets -/

/-- Product. -/
def prod : List Nat → Nat
  | [] => 1
  | d :: ds => d * prod ds

theorem foldl_mul (d : List Nat) (a : Nat) : d.foldl (· * ·) a = a * prod d := by
  induction d generalizing a with
  | nil => simp [prod]
  | cons x d ih => simp only [List.foldl_cons, ih, prod, Nat.mul_assoc]

theorem foldl_prod (d : List Nat) : d.foldl (· * ·) 1 = prod d := by rw [foldl_mul, Nat.one_mul]

theorem prod_pos : ∀ {d : List Nat}, 0 ∉ d → 0 < prod d
  | [], _ => by simp [prod]
  | x :: d, h => by
    have h1 : x ≠ 0 := fun e => h (by simp [e])
    have h2 : 0 < prod d := prod_pos fun e => h (List.mem_cons_of_mem _ e)
    exact Nat.mul_pos (Nat.pos_of_ne_zero h1) h2

/-- Place of an element or a part in the cells of an array. -/
def off : List Nat → List Nat → Nat
  | _ :: ds, i :: is => i * prod ds + off ds is
  | _, _ => 0

/-- Position of an element. -/
def Full (d q : List Nat) : Prop := within d q = true ∧ q.length = d.length

theorem off_nil (d : List Nat) : off d [] = 0 := by cases d <;> rfl

theorem within_append : ∀ (d p q : List Nat), within d (p ++ q) = (within d p && within (d.drop p.length) q)
  | d, [], q => by cases d <;> simp [within]
  | [], i :: p, q => by simp [within]
  | x :: d, i :: p, q => by simp [within, within_append d p q, Bool.and_assoc]

theorem within_length : ∀ {d p : List Nat}, within d p = true → p.length ≤ d.length
  | _, [], _ => by simp
  | [], _ :: _, h => by simp [within] at h
  | x :: d, i :: p, h => by
    simp only [within, Bool.and_eq_true] at h
    simpa using within_length h.2

theorem off_append : ∀ (d p q : List Nat), within d p = true → off d (p ++ q) = off d p + off (d.drop p.length) q
  | d, [], q, _ => by simp [off_nil]
  | [], i :: p, q, h => by simp [within] at h
  | x :: d, i :: p, q, h => by
    simp only [within, Bool.and_eq_true] at h
    simp only [List.cons_append, off, off_append d p q h.2, List.length_cons, List.drop_succ_cons]
    omega

theorem off_part : ∀ (d p : List Nat), within d p = true → off d p + prod (d.drop p.length) ≤ prod d
  | d, [], _ => by simp [off_nil]
  | [], i :: p, h => by simp [within] at h
  | x :: d, i :: p, h => by
    simp only [within, Bool.and_eq_true, decide_eq_true_eq] at h
    have ih := off_part d p h.2
    have : (i + 1) * prod d ≤ x * prod d := Nat.mul_le_mul_right _ h.1
    simp only [off, List.length_cons, List.drop_succ_cons, prod]
    rw [Nat.add_mul, Nat.one_mul] at this
    omega

theorem off_lt {d q : List Nat} (h : Full d q) : off d q < prod d := by
  have := off_part d q h.1
  have h2 : d.drop q.length = [] := by rw [h.2]; simp
  rw [h2] at this
  simp only [prod] at this
  omega

theorem full_append {d p q : List Nat} (h : within d p = true) : Full d (p ++ q) ↔ Full (d.drop p.length) q := by
  have := within_length h
  simp only [Full, within_append, h, Bool.true_and, List.length_append, List.length_drop]
  constructor
  · rintro ⟨a, b⟩; exact ⟨a, by omega⟩
  · rintro ⟨a, b⟩; exact ⟨a, by omega⟩

theorem off_outside : ∀ (d p q : List Nat), within d p = true → Full d q → q.take p.length ≠ p →
    off d q < off d p ∨ off d p + prod (d.drop p.length) ≤ off d q
  | d, [], q, _, _, hne => by simp at hne
  | [], i :: p, q, h, _, _ => by simp [within] at h
  | x :: d, i :: p, [], _, hq, _ => by simp [Full] at hq
  | x :: d, i :: p, j :: q, h, hq, hne => by
    simp only [within, Bool.and_eq_true, decide_eq_true_eq] at h
    obtain ⟨hq1, hq2⟩ := hq
    simp only [within, Bool.and_eq_true, decide_eq_true_eq] at hq1
    have hfq : Full d q := ⟨hq1.2, by simpa using hq2⟩
    have hpb := off_part d p h.2
    have hqb := off_lt hfq
    simp only [off, List.length_cons, List.drop_succ_cons]
    rcases Nat.lt_trichotomy i j with hij | hij | hij
    · right
      have : (i + 1) * prod d ≤ j * prod d := Nat.mul_le_mul_right _ hij
      rw [Nat.add_mul, Nat.one_mul] at this
      omega
    · subst hij
      have hne' : q.take p.length ≠ p := by
        intro e; apply hne; simp [e]
      rcases off_outside d p q h.2 hfq hne' with h1 | h1
      · left; omega
      · right; omega
    · left
      have : (j + 1) * prod d ≤ i * prod d := Nat.mul_le_mul_right _ hij
      rw [Nat.add_mul, Nat.one_mul] at this
      omega

theorem range_mul (a b : Nat) : (List.range a).flatMap (fun i => (List.range b).map fun j => i * b + j) = List.range (a * b) := by
  induction a with
  | zero => simp
  | succ a ih =>
    rw [List.range_succ, List.flatMap_append, ih, Nat.add_mul, Nat.one_mul, List.range_add]
    simp

theorem positions_off : ∀ d : List Nat, (positions d).map (off d) = List.range (prod d)
  | [] => by simp [positions, off, prod]
  | x :: d => by
    have ih := positions_off d
    rw [positions, prod, ← range_mul, List.map_flatMap]
    congr 1
    funext i
    rw [← ih, List.map_map, List.map_map]
    apply List.map_congr_left
    intro q _
    simp [off, Function.comp]

theorem positions_full : ∀ {d q : List Nat}, q ∈ positions d → Full d q
  | [], q, h => by
    simp only [positions, List.mem_singleton] at h
    subst h; simp [Full, within]
  | x :: d, q, h => by
    simp only [positions, List.mem_flatMap, List.mem_range, List.mem_map] at h
    obtain ⟨i, hi, q', hq', rfl⟩ := h
    have := positions_full hq'
    exact ⟨by simp [within, hi, this.1], by simp [this.2]⟩

theorem positions_length (d : List Nat) : (positions d).length = prod d := by
  have := congrArg List.length (positions_off d)
  simpa using this

theorem positions_at {d q : List Nat} {k : Nat} (h : (positions d)[k]? = some q) : off d q = k := by
  have h1 : ((positions d).map (off d))[k]? = some (off d q) := by rw [List.getElem?_map, h]; rfl
  rw [positions_off] at h1
  have := List.getElem?_eq_some_iff.mp h1
  obtain ⟨_, h2⟩ := this
  simpa using h2.symm

/-! ## Cells -/

theorem over_get (f : Nat → K) (a : Nat) (ks : List K) (i : Nat) (k : K) (h : ks[i]? = some k) : over f a ks (a + i) = k := by
  have : a + i - a = i := by omega
  simp [over, this, h]

theorem over_out (f : Nat → K) (a : Nat) (ks : List K) (b : Nat) (h : b < a ∨ a + ks.length ≤ b) : over f a ks b = f b := by
  unfold over
  by_cases hb : a ≤ b
  · have : ks.length ≤ b - a := by omega
    rw [if_pos hb, List.getElem?_eq_none this]
  · rw [if_neg hb]

/-- The cells of a value. -/
structure Rep (v : Val K) (ks : List K) : Prop where
  len : ks.length = prod v.dims
  pos : 0 ∉ v.dims
  el : ∀ q, Full v.dims q → ∀ k, v.el q = some k → ks[off v.dims q]? = some k

/-- The cells of several values, one after the other. -/
inductive RepL : List (Val K) → List K → Prop
  | nil : RepL [] []
  | cons {v vs ks ls} : Rep v ks → RepL vs ls → RepL (v :: vs) (ks ++ ls)

theorem rep_scalar (k : K) : Rep (scalar k) [k] := by
  refine ⟨rfl, by simp [scalar], ?_⟩
  intro q hq k' h
  simp only [scalar, Option.some.injEq] at h ⊢
  subst h
  cases q <;> simp [off]

theorem rep_num {v : Val K} {ks : List K} (h : Rep v ks) {k : K} (hk : v.num = some k) : ks = [k] := by
  unfold Val.num at hk
  by_cases hd : v.dims = []
  · rw [if_pos hd] at hk
    have h1 := h.len
    have h2 := h.el [] (by simp [Full, hd, within]) k hk
    rw [hd] at h1 h2
    simp only [prod, off] at h1 h2
    match ks, h1, h2 with
    | [a], _, h2 => simpa using h2
  · rw [if_neg hd] at hk; cases hk

/-- The memory at an address has the cells of a value. -/
structure CellR (m : Mem K) (ent : Ent K) (info : Info) : Prop where
  sig : ent.sig = info.sig
  dims : ent.val.dims = info.dims
  size : info.size = prod info.dims
  pos : 0 ∉ info.dims
  el : ∀ q, Full info.dims q → ∀ k, ent.val.el q = some k → m.get info.sig (info.addr + off info.dims q) = k

/-- Reading a part. -/
theorem read_rep {cfg : Cfg} {m : Mem K} {ent : Ent K} {info : Info} (h : CellR m ent info) {p : List Nat}
    (hp : within ent.val.dims p = true) (hb : info.addr + info.size ≤ cfg.size info.sig) :
    ∃ ks, readN cfg m info.sig ((info.addr + off info.dims p : Nat) : Int) (prod (info.dims.drop p.length)) = some ks ∧
      Rep (ent.val.sub p) ks := by
  rw [h.dims] at hp
  have hpart := off_part info.dims p hp
  have hsz := h.size
  refine ⟨_, if_pos ⟨by omega, by rw [Int.toNat_natCast]; omega⟩, ?_, ?_, ?_⟩
  · simp [Val.sub, h.dims]
  · intro hc
    exact h.pos (List.mem_of_mem_drop (by simpa [Val.sub, h.dims] using hc))
  · intro q hq k hk
    simp only [Val.sub, h.dims] at hq hk ⊢
    have hlt := off_lt hq
    rw [List.getElem?_map, List.getElem?_range hlt, Option.map_some, Option.some.injEq, Int.toNat_natCast]
    have := h.el (p ++ q) ((full_append hp).mpr hq) k hk
    rw [off_append _ _ _ hp] at this
    rw [← this, Nat.add_assoc]

/-- Writing a part. -/
theorem write_same {cfg : Cfg} {m : Mem K} {ent : Ent K} {info : Info} (h : CellR m ent info) {p : List Nat} {w : Val K} {ks : List K}
    (hp : within ent.val.dims p = true) (hw : Rep w ks) (hd : w.dims = ent.val.dims.drop p.length)
    (hb : info.addr + info.size ≤ cfg.size info.sig) :
    ∃ m', writeN cfg m info.sig ((info.addr + off info.dims p : Nat) : Int) ks = some m' ∧
      CellR m' ⟨info.sig, ent.val.upd p w⟩ info ∧
      ∀ s a, (s = info.sig → a < info.addr ∨ info.addr + info.size ≤ a) → m'.get s a = m.get s a := by
  rw [h.dims] at hp hd
  have hpart := off_part info.dims p hp
  have hsz := h.size
  have hlen := hw.len
  rw [hd] at hlen
  refine ⟨_, if_pos ⟨by omega, by rw [Int.toNat_natCast]; omega⟩, ?_, ?_⟩
  · refine ⟨rfl, h.dims, h.size, h.pos, ?_⟩
    intro q hq k hk
    have hget : ∀ a, (if info.sig = true then { m with sg := over m.sg (info.addr + off info.dims p) ks }
        else { m with lv := over m.lv (info.addr + off info.dims p) ks } : Mem K).get info.sig a
          = over (m.get info.sig) (info.addr + off info.dims p) ks a := by
      intro a
      cases info.sig <;> simp [Mem.get, over]
    rw [Int.toNat_natCast, hget]
    simp only [Val.upd] at hk
    by_cases ht : q.take p.length = p
    · rw [if_pos ht] at hk
      have hq' : q = p ++ q.drop p.length := by
        conv_lhs => rw [← List.take_append_drop p.length q, ht]
      have hfq : Full (info.dims.drop p.length) (q.drop p.length) := (full_append hp).mp (hq' ▸ hq)
      have := hw.el (q.drop p.length) (by rw [hd]; exact hfq) k hk
      rw [hd] at this
      rw [hq', off_append _ _ _ hp, ← Nat.add_assoc]
      exact over_get _ _ _ _ _ this
    · rw [if_neg ht] at hk
      rw [over_out]
      · exact h.el q hq k hk
      · have := off_outside info.dims p q hp hq ht
        rw [hlen]
        omega
  · intro s a ha
    rw [Int.toNat_natCast]
    cases hs : info.sig <;> cases s <;> simp only [Mem.get, if_true, if_false, Bool.false_eq_true, hs] at ha ⊢
    · rw [over_out]; have := ha trivial; omega
    · rw [over_out]; have := ha trivial; omega

/-- Cells that are not written. -/
theorem write_other {m m' : Mem K} {ent : Ent K} {info : Info} (h : CellR m ent info)
    (hm : ∀ a, info.addr ≤ a → a < info.addr + info.size → m'.get info.sig a = m.get info.sig a) : CellR m' ent info := by
  refine ⟨h.sig, h.dims, h.size, h.pos, ?_⟩
  intro q hq k hk
  have := off_lt hq
  have hsz := h.size
  rw [hm _ (by omega) (by omega)]
  exact h.el q hq k hk

/-! ## Scopes -/

/-- The memory has the values of all names. -/
def Mt (m : Mem K) (E : Frames K) (env : TEnv) : Prop :=
  List.Forall₂ (List.Forall₂ fun a b => a.1 = b.1 ∧ CellR m a.2 b.2) E env

/-- All entries. -/
def entries (env : TEnv) : List Info := (env.flatten).map (·.2)

theorem findIn_rel {m : Mem K} {x : Name} : ∀ {f : List (Name × Ent K)} {g : List (Name × Info)},
    List.Forall₂ (fun a b => a.1 = b.1 ∧ CellR m a.2 b.2) f g →
      (findIn x f = none ∧ findIn x g = none) ∨
        ∃ ent info, findIn x f = some ent ∧ findIn x g = some info ∧ CellR m ent info ∧ info ∈ g.map (·.2)
  | _, _, .nil => by simp [findIn]
  | (y, e) :: f, (z, i) :: g, .cons h hr => by
    obtain ⟨h1, h2⟩ := h
    simp only at h1 h2
    subst h1
    by_cases hx : y = x
    · right; exact ⟨e, i, by simp [findIn, hx], by simp [findIn, hx], h2, by simp⟩
    · rcases findIn_rel (x := x) hr with ⟨a, b⟩ | ⟨ent, info, a, b, c, d⟩
      · left; simp [findIn, hx, a, b]
      · right; exact ⟨ent, info, by simp [findIn, hx, a], by simp [findIn, hx, b], c, by simp at d ⊢; exact Or.inr d⟩

theorem find_rel {m : Mem K} {x : Name} : ∀ {E : Frames K} {env : TEnv}, Mt m E env →
      (find x E = none ∧ find x env = none) ∨
        ∃ ent info, find x E = some ent ∧ find x env = some info ∧ CellR m ent info ∧ info ∈ entries env
  | _, _, .nil => by simp [find]
  | f :: E, g :: env, .cons h hr => by
    rcases findIn_rel (x := x) h with ⟨a, b⟩ | ⟨ent, info, a, b, c, d⟩
    · rcases find_rel (x := x) (E := E) (env := env) hr with ⟨a', b'⟩ | ⟨ent, info, a', b', c', d'⟩
      · left; simp [find, a, b, a', b']
      · right
        refine ⟨ent, info, by simp [find, a, a'], by simp [find, b, b'], c', ?_⟩
        simp only [entries, List.flatten_cons, List.map_append, List.mem_append] at d' ⊢
        exact Or.inr d'
    · right
      refine ⟨ent, info, by simp [find, a], by simp [find, b], c, ?_⟩
      simp only [entries, List.flatten_cons, List.map_append, List.mem_append]
      exact Or.inl d

/-- Two entries do not share cells. -/
def Disj (a b : Info) : Prop := a.sig = b.sig → a.addr + a.size ≤ b.addr ∨ b.addr + b.size ≤ a.addr

theorem Disj.symm {a b : Info} (h : Disj a b) : Disj b a := fun e => (h e.symm).symm

/-- Change of memory outside of an entry. -/
def Only (m m' : Mem K) (info : Info) : Prop :=
  ∀ s a, (s = info.sig → a < info.addr ∨ info.addr + info.size ≤ a) → m'.get s a = m.get s a

theorem cell_only {m m' : Mem K} {info i : Info} {ent : Ent K} (ho : Only m m' info) (hd : Disj i info) (h : CellR m ent i) :
    CellR m' ent i := by
  apply write_other h
  intro a h1 h2
  apply ho
  intro e
  rcases hd e with h3 | h3 <;> omega

theorem frame_only {m m' : Mem K} {info : Info} (ho : Only m m' info) : ∀ {f : List (Name × Ent K)} {g : List (Name × Info)},
    List.Forall₂ (fun a b => a.1 = b.1 ∧ CellR m a.2 b.2) f g → (∀ i ∈ g.map (·.2), Disj i info) →
      List.Forall₂ (fun a b => a.1 = b.1 ∧ CellR m' a.2 b.2) f g
  | _, _, .nil, _ => .nil
  | _, b :: _, .cons h hr, hd => .cons ⟨h.1, cell_only ho (hd _ (by simp)) h.2⟩
      (frame_only ho hr fun i hi => hd i (by simp at hi ⊢; exact Or.inr hi))

theorem frames_only {m m' : Mem K} {info : Info} (ho : Only m m' info) : ∀ {E : Frames K} {env : TEnv},
    Mt m E env → (∀ i ∈ entries env, Disj i info) → Mt m' E env
  | _, _, .nil, _ => .nil
  | _, _ :: _, .cons h hr, hd =>
    .cons (frame_only ho h fun i hi => hd i (by simp only [entries, List.flatten_cons, List.map_append, List.mem_append]; exact Or.inl hi))
      (frames_only ho hr fun i hi => hd i (by
        simp only [entries, List.flatten_cons, List.map_append, List.mem_append] at hi ⊢; exact Or.inr hi))

theorem putIn_rel {m m' : Mem K} {x : Name} {info : Info} {ent' : Ent K} (ho : Only m m' info) (hc : CellR m' ent' info) :
    ∀ {f : List (Name × Ent K)} {g : List (Name × Info)},
    List.Forall₂ (fun a b => a.1 = b.1 ∧ CellR m a.2 b.2) f g → (g.map (·.2)).Pairwise Disj → findIn x g = some info →
      List.Forall₂ (fun a b => a.1 = b.1 ∧ CellR m' a.2 b.2) (putIn x ent' f) g
  | _, _, .nil, _, hf => by simp [findIn] at hf
  | (y, e) :: f, (z, i) :: g, .cons h hr, hp, hf => by
    obtain ⟨h1, h2⟩ := h
    simp only at h1 h2
    subst h1
    rw [List.map_cons, List.pairwise_cons] at hp
    by_cases hx : y = x
    · simp only [findIn, hx, if_true, Option.some.injEq] at hf
      subst hf
      simp only [putIn, hx, if_true]
      exact .cons ⟨rfl, hc⟩ (frame_only ho hr fun j hj => (hp.1 j hj).symm)
    · simp only [findIn, hx, if_false] at hf
      simp only [putIn, hx, if_false]
      refine .cons ⟨rfl, cell_only ho (hp.1 info ?_) h2⟩ (putIn_rel ho hc hr hp.2 hf)
      rcases findIn_rel (x := x) hr with ⟨_, b⟩ | ⟨_, info', _, b, _, d⟩
      · rw [b] at hf; cases hf
      · rw [b] at hf; cases hf; exact d

theorem put_rel {m m' : Mem K} {x : Name} {info : Info} {ent' : Ent K} (ho : Only m m' info) (hc : CellR m' ent' info) :
    ∀ {E : Frames K} {env : TEnv}, Mt m E env → (entries env).Pairwise Disj → find x env = some info → Mt m' (put x ent' E) env
  | _, _, .nil, _, hf => by simp [find] at hf
  | f :: E, g :: env, .cons h hr, hp, hf => by
    simp only [entries, List.flatten_cons, List.map_append] at hp
    rw [List.pairwise_append] at hp
    obtain ⟨hp1, hp2, hp3⟩ := hp
    rcases findIn_rel (x := x) h with ⟨a, b⟩ | ⟨ent, info', a, b, c, d⟩
    · simp only [find, b] at hf
      simp only [put, a]
      have hmem : info ∈ entries env := by
        rcases find_rel (x := x) hr with ⟨_, b'⟩ | ⟨_, _, _, b', _, d'⟩
        · rw [b'] at hf; cases hf
        · rw [b'] at hf; cases hf; exact d'
      exact .cons (frame_only ho h fun i hi => hp3 i hi info hmem) (put_rel ho hc hr hp2 hf)
    · simp only [find, b, Option.some.injEq] at hf
      subst hf
      simp only [put, a]
      exact .cons (putIn_rel ho hc h hp1 b) (frames_only ho hr fun i hi => (hp3 info' d i hi).symm)

end Verif.Ir
