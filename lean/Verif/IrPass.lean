import Verif.IrSim

/-!
# The passes on instructions
-/

set_option linter.unusedSimpArgs false
set_option linter.unusedVariables false

namespace Verif.Ir

variable {K : Type}

/-- Arenas of the calls outside of `log`. -/
def setI (ar : Name → Nat) : I → I
  | .load sig loc size => .load sig (setI ar loc) size
  | .comp1 o a => .comp1 o (setI ar a)
  | .comp2 o a b => .comp2 o (setI ar a) (setI ar b)
  | .call f args _ => .call f (setI ar args) (ar f)
  | .cons n a r => .cons n (setI ar a) (setI ar r)
  | i => i

/-- Arenas of the calls outside of `log`. -/
def setS (ar : Name → Nat) : IS → IS
  | .store sig loc src d s => .store sig (setI ar loc) (setI ar src) d s
  | .callTo sig loc d f args _ => .callTo sig (setI ar loc) d f (setI ar args) (ar f)
  | .branch c a b => .branch (setI ar c) (setS ar a) (setS ar b)
  | .loop c s => .loop (setI ar c) (setS ar s)
  | .ret n e => .ret n (setI ar e)
  | .assert q e => .assert q (setI ar e)
  | .cons s ss => .cons (setS ar s) (setS ar ss)
  | s => s

theorem ev_setI {S : Sem K} {cfg : Cfg} {F : IFns K} {m : Mem K} (ar : Name → Nat) (i : I) :
    ev S cfg F m (setI ar i) = ev S cfg (fun f ks _ => F f ks (ar f)) m i := by
  induction i <;> simp only [setI, ev, *]

theorem evK_setI {S : Sem K} {cfg : Cfg} {F : IFns K} {m : Mem K} (ar : Name → Nat) (i : I) :
    evK S cfg F m (setI ar i) = evK S cfg (fun f ks _ => F f ks (ar f)) m i := by
  simp only [evK, ev_setI]

theorem arenaI_setI {A : Name → Option Nat} {i i' : I} (h : arenaI A i = some i') : i' = setI (fun f => (A f).getD 0) i := by
  induction i generalizing i' with
  | u32 n => simp only [arenaI, Option.some.injEq] at h; exact h.symm
  | big n => simp only [arenaI, Option.some.injEq] at h; exact h.symm
  | nil => simp only [arenaI, Option.some.injEq] at h; exact h.symm
  | load sig loc size ih =>
    simp only [arenaI, Option.map_eq_some_iff] at h
    obtain ⟨l, h1, rfl⟩ := h
    simp only [setI, ← ih h1]
  | comp1 o a ih =>
    simp only [arenaI, Option.map_eq_some_iff] at h
    obtain ⟨l, h1, rfl⟩ := h
    simp only [setI, ← ih h1]
  | comp2 o a b iha ihb =>
    simp only [arenaI] at h
    split at h
    · rename_i a' b' h1 h2
      cases h; simp only [setI, ← iha h1, ← ihb h2]
    · cases h
  | call f args n ih =>
    simp only [arenaI] at h
    split at h
    · rename_i k a' h1 h2
      cases h; simp only [setI, ← ih h2, h1, Option.getD_some]
    · cases h
  | cons n a r iha ihb =>
    simp only [arenaI] at h
    split at h
    · rename_i a' b' h1 h2
      cases h; simp only [setI, ← iha h1, ← ihb h2]
    · cases h

theorem arenaS_setS {A : Name → Option Nat} {s s' : IS} (h : arenaS A s = some s') : s' = setS (fun f => (A f).getD 0) s := by
  induction s generalizing s' with
  | store sig loc src d n =>
    simp only [arenaS] at h
    split at h
    · rename_i a' b' h1 h2
      cases h; simp only [setS, ← arenaI_setI h1, ← arenaI_setI h2]
    · cases h
  | callTo sig loc d f args n =>
    simp only [arenaS] at h
    split at h
    · rename_i k a' b' h1 h2 h3
      cases h; simp only [setS, ← arenaI_setI h2, ← arenaI_setI h3, h1, Option.getD_some]
    · cases h
  | branch c a b iha ihb =>
    simp only [arenaS] at h
    split at h
    · rename_i c' a' b' h1 h2 h3
      cases h; simp only [setS, ← arenaI_setI h1, ← iha h2, ← ihb h3]
    · cases h
  | loop c s ih =>
    simp only [arenaS] at h
    split at h
    · rename_i c' a' h1 h2
      cases h; simp only [setS, ← arenaI_setI h1, ← ih h2]
    · cases h
  | ret n e =>
    simp only [arenaS, Option.map_eq_some_iff] at h
    obtain ⟨l, h1, rfl⟩ := h
    simp only [setS, ← arenaI_setI h1]
  | assert q e =>
    simp only [arenaS, Option.map_eq_some_iff] at h
    obtain ⟨l, h1, rfl⟩ := h
    simp only [setS, ← arenaI_setI h1]
  | log args => simp only [arenaS, Option.some.injEq] at h; exact h.symm
  | nil => simp only [arenaS, Option.some.injEq] at h; exact h.symm
  | cons s ss ih1 ih2 =>
    simp only [arenaS] at h
    split at h
    · rename_i a' b' h1 h2
      cases h; simp only [setS, ← ih1 h1, ← ih2 h2]
    · cases h

/-- Reduction keeps the values. -/
theorem ev_reduce {S : Sem K} {cfg : Cfg} {F : IFns K} {m : Mem K} {i i' : I} (h : reduceI i = some i') :
    ev S cfg F m i' = ev S cfg F m i := by
  induction i generalizing i' with
  | u32 n => simp only [reduceI, Option.some.injEq] at h; rw [h]
  | big n => simp only [reduceI, Option.some.injEq] at h; rw [h]
  | nil => simp only [reduceI, Option.some.injEq] at h; rw [h]
  | load sig loc size ih =>
    simp only [reduceI, Option.map_eq_some_iff] at h
    obtain ⟨l, h1, rfl⟩ := h
    simp only [ev, ih h1]
  | comp1 o a ih =>
    simp only [reduceI, Option.map_eq_some_iff] at h
    obtain ⟨l, h1, rfl⟩ := h
    simp only [ev, ih h1]
  | comp2 o a b iha ihb =>
    simp only [reduceI] at h
    split at h
    · rename_i a' b' h1 h2
      have ea := iha h1
      have eb := ihb h2
      split at h
      · split at h
        · cases h; simp only [ev, ← ea, ← eb, doComp2, List.append_nil]; push_cast; rfl
        · cases h
      · split at h
        · cases h; simp only [ev, ← ea, ← eb, doComp2, List.append_nil]; push_cast; rfl
        · cases h
      · cases h; simp only [ev, ea, eb]
    · cases h
  | call f args n ih =>
    simp only [reduceI, Option.map_eq_some_iff] at h
    obtain ⟨l, h1, rfl⟩ := h
    simp only [ev, ih h1]
  | cons n a r iha ihb =>
    simp only [reduceI] at h
    split at h
    · rename_i a' b' h1 h2
      cases h; simp only [ev, iha h1, ihb h2]
    · cases h

theorem evK_reduce {S : Sem K} {cfg : Cfg} {F : IFns K} {m : Mem K} {i i' : I} (h : reduceI i = some i') :
    evK S cfg F m i' = evK S cfg F m i := by
  simp only [evK, ev_reduce h]

theorem evLog_reduce {S : Sem K} {cfg : Cfg} {F : IFns K} {m : Mem K} : ∀ {l l' : List LogI}, reduceLog l = some l' →
    evLog S cfg F m l' = evLog S cfg F m l
  | [], l', h => by simp only [reduceLog, Option.some.injEq] at h; rw [← h]
  | .str k :: r, l', h => by
    simp only [reduceLog, Option.map_eq_some_iff] at h
    obtain ⟨l, h1, rfl⟩ := h
    simp only [evLog, evLog_reduce h1]
  | .exp e :: r, l', h => by
    simp only [reduceLog] at h
    split at h
    · rename_i e' r' h1 h2
      cases h; simp only [evLog, evK_reduce h1, evLog_reduce h2]
    · cases h

theorem run_reduce {S : Sem K} {chk : Bool} {cfg : Cfg} {F : IFns K} {n : Nat} {s s' : IS} (h : reduceS s = some s') :
    run S chk cfg F n s' = run S chk cfg F n s := by
  induction s generalizing s' with
  | store sig loc src d k =>
    simp only [reduceS] at h
    split at h
    · rename_i a' b' h1 h2
      cases h; funext m; simp only [run, ev_reduce h1, ev_reduce h2]
    · cases h
  | callTo sig loc d f args k =>
    simp only [reduceS] at h
    split at h
    · rename_i a' b' h1 h2
      cases h; funext m; simp only [run, ev_reduce h1, ev_reduce h2]
    · cases h
  | branch c a b iha ihb =>
    simp only [reduceS] at h
    split at h
    · rename_i c' a' b' h1 h2 h3
      cases h; funext m; simp only [run, evK_reduce h1, iha h2, ihb h3]
    · cases h
  | loop c s ih =>
    simp only [reduceS] at h
    split at h
    · rename_i c' a' h1 h2
      cases h; funext m; simp only [run, evK_reduce h1, ih h2]
    · cases h
  | ret k e =>
    simp only [reduceS, Option.map_eq_some_iff] at h
    obtain ⟨l, h1, rfl⟩ := h
    funext m; simp only [run, ev_reduce h1]
  | assert q e =>
    simp only [reduceS, Option.map_eq_some_iff] at h
    obtain ⟨l, h1, rfl⟩ := h
    funext m; simp only [run, evK_reduce h1]
  | log args =>
    simp only [reduceS, Option.map_eq_some_iff] at h
    obtain ⟨l, h1, rfl⟩ := h
    funext m; simp only [run, evLog_reduce h1]
  | nil => simp only [reduceS, Option.some.injEq] at h; rw [← h]
  | cons s ss ih1 ih2 =>
    simp only [reduceS] at h
    split at h
    · rename_i a' b' h1 h2
      cases h; funext m; simp only [run, ih1 h1, ih2 h2]
    · cases h

theorem setI_u32 {ar : Name → Nat} {i : I} {n : Nat} : setI ar i = .u32 n ↔ i = .u32 n := by
  cases i <;> simp [setI]

theorem reduce_set (ar : Name → Nat) {i i' : I} (h : reduceI i = some i') : reduceI (setI ar i) = some (setI ar i') := by
  induction i generalizing i' with
  | u32 n => simp only [reduceI, Option.some.injEq] at h; rw [← h]; rfl
  | big n => simp only [reduceI, Option.some.injEq] at h; rw [← h]; rfl
  | nil => simp only [reduceI, Option.some.injEq] at h; rw [← h]; rfl
  | load sig loc size ih =>
    simp only [reduceI, Option.map_eq_some_iff] at h
    obtain ⟨l, h1, rfl⟩ := h
    simp only [setI, reduceI, ih h1, Option.map_some]
  | comp1 o a ih =>
    simp only [reduceI, Option.map_eq_some_iff] at h
    obtain ⟨l, h1, rfl⟩ := h
    simp only [setI, reduceI, ih h1, Option.map_some]
  | comp2 o a b iha ihb =>
    simp only [reduceI] at h
    split at h
    · rename_i a' b' h1 h2
      have ea := iha h1
      have eb := ihb h2
      simp only [setI, reduceI, ea, eb]
      split at h
      · split at h
        · rename_i hlt; cases h; simp only [setI, hlt, if_true]
        · cases h
      · split at h
        · rename_i hlt; cases h; simp only [setI, hlt, if_true]
        · cases h
      · rename_i x1 x2 x3 hn1 hn2
        cases h
        simp only [setI]
        split
        · rename_i y1 y2 y3 hx hy
          exact absurd (setI_u32.mp hy) (fun hy => hn1 _ _ rfl (setI_u32.mp hx) hy)
        · rename_i y1 y2 y3 hx hy
          exact absurd (setI_u32.mp hy) (fun hy => hn2 _ _ rfl (setI_u32.mp hx) hy)
        · rfl
    · cases h
  | call f args n ih =>
    simp only [reduceI, Option.map_eq_some_iff] at h
    obtain ⟨l, h1, rfl⟩ := h
    simp only [setI, reduceI, ih h1, Option.map_some]
  | cons n a r iha ihb =>
    simp only [reduceI] at h
    split at h
    · rename_i a' b' h1 h2
      cases h; simp only [setI, reduceI, iha h1, ihb h2]
    · cases h

theorem reduceS_set (ar : Name → Nat) {s s' : IS} (h : reduceS s = some s') : reduceS (setS ar s) = some (setS ar s') := by
  induction s generalizing s' with
  | store sig loc src d k =>
    simp only [reduceS] at h
    split at h
    · rename_i a' b' h1 h2
      cases h; simp only [setS, reduceS, reduce_set ar h1, reduce_set ar h2]
    · cases h
  | callTo sig loc d f args k =>
    simp only [reduceS] at h
    split at h
    · rename_i a' b' h1 h2
      cases h; simp only [setS, reduceS, reduce_set ar h1, reduce_set ar h2]
    · cases h
  | branch c a b iha ihb =>
    simp only [reduceS] at h
    split at h
    · rename_i c' a' b' h1 h2 h3
      cases h; simp only [setS, reduceS, reduce_set ar h1, iha h2, ihb h3]
    · cases h
  | loop c s ih =>
    simp only [reduceS] at h
    split at h
    · rename_i c' a' h1 h2
      cases h; simp only [setS, reduceS, reduce_set ar h1, ih h2]
    · cases h
  | ret k e =>
    simp only [reduceS, Option.map_eq_some_iff] at h
    obtain ⟨l, h1, rfl⟩ := h
    simp only [setS, reduceS, reduce_set ar h1, Option.map_some]
  | assert q e =>
    simp only [reduceS, Option.map_eq_some_iff] at h
    obtain ⟨l, h1, rfl⟩ := h
    simp only [setS, reduceS, reduce_set ar h1, Option.map_some]
  | log args =>
    simp only [reduceS, Option.map_eq_some_iff] at h
    obtain ⟨l, h1, rfl⟩ := h
    simp only [setS, reduceS, h1, Option.map_some]
  | nil => simp only [reduceS, Option.some.injEq] at h; rw [← h]; rfl
  | cons s ss ih1 ih2 =>
    simp only [reduceS] at h
    split at h
    · rename_i a' b' h1 h2
      cases h; simp only [setS, reduceS, ih1 h1, ih2 h2]
    · cases h

/-- The final code does what the code of the translation does with the right arenas. -/
theorem run_passes {S : Sem K} {chk : Bool} {cfg : Cfg} {F : IFns K} {n : Nat} {A : Name → Option Nat} {s s' s'' : IS}
    (h : reduceS s = some s') (h' : arenaS A s' = some s'') :
    run S chk cfg F n s'' = run S chk cfg F n (setS (fun f => (A f).getD 0) s) := by
  rw [arenaS_setS h', run_reduce (reduceS_set _ h)]

theorem setS_append (ar : Name → Nat) : ∀ a b : IS, setS ar (a.append b) = (setS ar a).append (setS ar b)
  | .nil, b => rfl
  | .cons s ss, b => by simp only [IS.append, setS, setS_append ar ss b]
  | .store _ _ _ _ _, b => rfl
  | .callTo _ _ _ _ _ _, b => rfl
  | .branch _ _ _, b => rfl
  | .loop _ _, b => rfl
  | .ret _ _, b => rfl
  | .assert _ _, b => rfl
  | .log _, b => rfl

/-- A list of one instruction. -/
theorem run_one {S : Sem K} {chk : Bool} {cfg : Cfg} {F : IFns K} {n : Nat} (s : IS) (m : Mem K) :
    run S chk cfg F n (.cons s .nil) m = run S chk cfg F n s m := by
  simp only [run]
  rcases run S chk cfg F n s m with e | ⟨m', evs, _ | r⟩ <;> simp

/-- Lists one after the other. -/
theorem run_append {S : Sem K} {chk : Bool} {cfg : Cfg} {F : IFns K} {n : Nat} : ∀ (a b : IS) (m : Mem K),
    run S chk cfg F n (a.append b) m = run S chk cfg F n (.cons a b) m
  | .nil, b, m => by
    simp only [IS.append, run]
    rcases run S chk cfg F n b m with e | ⟨m', evs, r⟩ <;> simp
  | .cons s ss, b, m => by
    simp only [IS.append, run]
    rcases run S chk cfg F n s m with e | ⟨m', evs, _ | r⟩
    · rfl
    · have := run_append (S := S) (chk := chk) (cfg := cfg) (F := F) (n := n) ss b m'
      simp only [run] at this
      simp only [this]
      rcases run S chk cfg F n ss m' with e | ⟨m'', evs', _ | r⟩
      · rfl
      · simp only
        rcases run S chk cfg F n b m'' with e | ⟨m'', evs', _ | r⟩ <;> simp
      · rfl
    · rfl
  | .store _ _ _ _ _, b, m => rfl
  | .callTo _ _ _ _ _ _, b, m => rfl
  | .branch _ _ _, b, m => rfl
  | .loop _ _, b, m => rfl
  | .ret _ _, b, m => rfl
  | .assert _ _, b, m => rfl
  | .log _, b, m => rfl

end Verif.Ir
