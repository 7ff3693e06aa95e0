import Verif.Address
import Mathlib.Data.Int.ModEq
import Mathlib.Algebra.BigOperators.Group.List.Basic
import Mathlib.Tactic.Ring
import Mathlib.Tactic.Linarith

/-! # Lemmas about `Verif.Address` -/

namespace Verif.Address

set_option linter.unusedSimpArgs false
set_option linter.unusedVariables false

open Verif.ModArith (Fail Res)

mutual
/-- Loads read by an instruction. -/
def loads : IR → List Nat
  | .u32 _ => []
  | .big _ => []
  | .load k => [k]
  | .comp _ args => loadsAll args
/-- Loads read by a list of instructions. -/
def loadsAll : List IR → List Nat
  | [] => []
  | i :: is => loads i ++ loadsAll is
end

/-! ## Index conversion -/

mutual
theorem convert_ok : ∀ e : IR, (check e).1 = true → ∃ e', convert e = .ok e'
  | .u32 n, _ => ⟨_, rfl⟩
  | .big n, h => by
    simp only [check] at h
    split at h
    · next hn => exact ⟨.u32 n, by simp only [convert, if_pos hn]⟩
    · simp at h
  | .load k, _ => ⟨_, rfl⟩
  | .comp .add args, h => by
    simp only [check] at h
    obtain ⟨as', ha⟩ := convertAll_ok args h
    exact ⟨_, by simp [convert, ha]; rfl⟩
  | .comp .mul args, h => by
    simp only [check, Bool.and_eq_true] at h
    obtain ⟨as', ha⟩ := convertAll_ok args h.1
    exact ⟨_, by simp [convert, ha]; rfl⟩
  | .comp (.other k) args, h => by simp [check] at h
  | .comp .toAddress args, h => by simp [check] at h
  | .comp .mulAddress args, h => by simp [check] at h
  | .comp .addAddress args, h => by simp [check] at h
theorem convertAll_ok : ∀ es : List IR, (checkAll es).1 = true → ∃ es', convertAll es = .ok es'
  | [], _ => ⟨_, rfl⟩
  | i :: is, h => by
    simp only [checkAll, Bool.and_eq_true] at h
    obtain ⟨i', hi⟩ := convert_ok i h.1
    obtain ⟨is', his⟩ := convertAll_ok is h.2
    exact ⟨i' :: is', by simp [convertAll, hi, his]⟩
end

theorem centred_modEq (p v : Int) : centred p v ≡ v [ZMOD p] := by
  unfold centred
  split
  · rfl
  · exact (Int.modEq_iff_dvd).2 ⟨1, by ring⟩

theorem centred_of_modEq {p v z : Int} (hp : 0 < p) (hodd : p % 2 = 1) (hv : 0 ≤ v) (hv' : v < p)
    (hz : z ≡ v [ZMOD p]) (h1 : -(p / 2) ≤ z) (h2 : z ≤ p / 2) : centred p v = z := by
  have h := (centred_modEq p v).trans hz.symm
  have hc : -(p / 2) ≤ centred p v ∧ centred p v ≤ p / 2 := by
    unfold centred; split <;> omega
  obtain ⟨k, hk⟩ := (Int.modEq_iff_dvd).1 h
  have : k = 0 := by
    by_contra hne
    rcases lt_or_gt_of_ne hne with hl | hl
    · have : p * k ≤ p * (-1) := mul_le_mul_of_nonneg_left (by omega) (by omega)
      omega
    · have : p * 1 ≤ p * k := mul_le_mul_of_nonneg_left (by omega) (by omega)
      omega
  subst this
  omega

/-- The opaque values are field elements. -/
def EnvOk (p : Int) (ρ : Env) : Prop :=
  (∀ k, 0 ≤ ρ.load k ∧ ρ.load k < p) ∧ ∀ k vs, 0 ≤ ρ.op k vs ∧ ρ.op k vs < p

theorem fval_range {p : Int} {ρ : Env} (hp : 0 < p) (hρ : EnvOk p ρ) {e : IR} {v : Int} (h : fval p ρ e = some v) :
    0 ≤ v ∧ v < p := by
  cases e with
  | u32 n => simp [fval] at h
  | big n =>
    simp only [fval, Option.some.injEq] at h
    subst h
    exact ⟨Int.emod_nonneg _ (by omega), Int.emod_lt_of_pos _ hp⟩
  | load k =>
    simp only [fval, Option.some.injEq] at h
    subst h
    exact hρ.1 k
  | comp o args =>
    simp only [fval] at h
    split at h
    · simp at h
    · split at h <;> simp only [Option.some.injEq, reduceCtorEq] at h
      · subst h; exact ⟨Int.emod_nonneg _ (by omega), Int.emod_lt_of_pos _ hp⟩
      · subst h; exact ⟨Int.emod_nonneg _ (by omega), Int.emod_lt_of_pos _ hp⟩
      · subst h; exact hρ.2 _ _

/-- Pointwise congruence. -/
def CongAll (p : Int) : List Int → List Int → Prop
  | [], [] => True
  | a :: as, b :: bs => a ≡ b [ZMOD p] ∧ CongAll p as bs
  | _, _ => False

mutual
theorem convert_z (p : Int) (ρ : Env) : ∀ (e e' : IR) (v : Int), convert e = .ok e' → fval p ρ e = some v →
    ∃ z, zaddr p ρ e' = some z ∧ z ≡ v [ZMOD p]
  | .u32 n, e', v, h, hv => by simp [fval] at hv
  | .big n, e', v, h, hv => by
    simp only [convert] at h
    split at h
    · injection h with h
      subst h
      simp only [fval, Option.some.injEq] at hv
      subst hv
      exact ⟨n, rfl, (Int.mod_modEq _ _).symm⟩
    · simp at h
  | .load k, e', v, h, hv => by
    simp only [convert, Except.ok.injEq] at h
    subst h
    simp only [fval, Option.some.injEq] at hv
    subst hv
    exact ⟨_, by simp [zaddr, fvalAll, fval], centred_modEq _ _⟩
  | .comp .add args, e', v, h, hv => by
    simp only [convert] at h
    split at h
    · next as' ha =>
      injection h with h
      subst h
      simp only [fval] at hv
      split at hv
      · simp at hv
      · next vs hvs =>
        obtain ⟨zs, hzs, hc⟩ := convertAll_z p ρ args as' vs ha hvs
        match vs, zs, hc with
        | [], [], _ => simp at hv
        | [a], [b], _ => simp at hv
        | [a, b], [x, y], hc =>
          simp only [Option.some.injEq] at hv
          subst hv
          refine ⟨x + y, by simp [zaddr, hzs], ?_⟩
          exact (hc.1.add hc.2.1).trans (Int.mod_modEq _ _).symm
        | a :: b :: c :: d, _, _ => simp at hv
    · simp at h
  | .comp .mul args, e', v, h, hv => by
    simp only [convert] at h
    split at h
    · next as' ha =>
      injection h with h
      subst h
      simp only [fval] at hv
      split at hv
      · simp at hv
      · next vs hvs =>
        obtain ⟨zs, hzs, hc⟩ := convertAll_z p ρ args as' vs ha hvs
        match vs, zs, hc with
        | [], [], _ => simp at hv
        | [a], [b], _ => simp at hv
        | [a, b], [x, y], hc =>
          simp only [Option.some.injEq] at hv
          subst hv
          refine ⟨x * y, by simp [zaddr, hzs], ?_⟩
          exact (hc.1.mul hc.2.1).trans (Int.mod_modEq _ _).symm
        | a :: b :: c :: d, _, _ => simp at hv
    · simp at h
  | .comp (.other k) args, e', v, h, hv => by simp [convert] at h
  | .comp .toAddress args, e', v, h, hv => by simp [convert] at h
  | .comp .mulAddress args, e', v, h, hv => by simp [convert] at h
  | .comp .addAddress args, e', v, h, hv => by simp [convert] at h
theorem convertAll_z (p : Int) (ρ : Env) : ∀ (es es' : List IR) (vs : List Int), convertAll es = .ok es' →
    fvalAll p ρ es = some vs → ∃ zs, zaddrAll p ρ es' = some zs ∧ CongAll p zs vs
  | [], es', vs, h, hv => by
    simp only [convertAll, Except.ok.injEq] at h
    simp only [fvalAll, Option.some.injEq] at hv
    subst h; subst hv
    exact ⟨[], rfl, trivial⟩
  | i :: is, es', vs, h, hv => by
    simp only [convertAll] at h
    split at h
    · next i' hi =>
      split at h
      · next is' his =>
        injection h with h
        subst h
        simp only [fvalAll] at hv
        split at hv
        · simp at hv
        · next v1 hv1 =>
          split at hv
          · simp at hv
          · next vs1 hvs1 =>
            simp only [Option.some.injEq] at hv
            subst hv
            obtain ⟨z, hz, hc⟩ := convert_z p ρ i i' v1 hi hv1
            obtain ⟨zs, hzs, hcs⟩ := convertAll_z p ρ is is' vs1 his hvs1
            exact ⟨z :: zs, by simp [zaddrAll, hz, hzs], hc, hcs⟩
      · simp at h
    · simp at h
end

theorem filterOne_z {p : Int} {ρ : Env} {e e' : IR} {v : Int} (h : filterOne e = .ok e') (hv : fval p ρ e = some v) :
    ∃ z, zaddr p ρ e' = some z ∧ z ≡ v [ZMOD p] := by
  unfold filterOne at h
  split at h
  · exact convert_z p ρ e e' v h hv
  · injection h with h
    subst h
    exact ⟨_, by simp [zaddr, fvalAll, hv], centred_modEq _ _⟩

mutual
theorem waddr_z (p : Int) (ρ : Env) : ∀ (e : IR) (w : Int), waddr p ρ e = some w →
    ∃ z, zaddr p ρ e = some z ∧ w = z % 2 ^ 32
  | .u32 n, w, h => by
    simp only [waddr] at h
    split at h
    · injection h with h
      subst h
      exact ⟨n, rfl, by omega⟩
    · simp at h
  | .big n, w, h => by simp [waddr] at h
  | .load k, w, h => by simp [waddr] at h
  | .comp .toAddress args, w, h => by
    simp only [waddr] at h
    split at h
    · next v hv =>
      injection h with h
      subst h
      exact ⟨_, by simp [zaddr, hv], rfl⟩
    · simp at h
  | .comp .addAddress args, w, h => by
    simp only [waddr] at h
    split at h
    · next a b hv =>
      injection h with h
      subst h
      obtain ⟨zs, hz, hm⟩ := waddrAll_z p ρ args _ hv
      match zs, hm with
      | [x, y], hm =>
        simp only [List.map_cons, List.map_nil, List.cons.injEq, and_true] at hm
        refine ⟨x + y, by simp [zaddr, hz], ?_⟩
        rw [hm.1, hm.2, ← Int.add_emod]
      | [], hm => simp at hm
      | [x], hm => simp at hm
      | x :: y :: z :: t, hm => simp at hm
    · simp at h
  | .comp .mulAddress args, w, h => by
    simp only [waddr] at h
    split at h
    · next a b hv =>
      injection h with h
      subst h
      obtain ⟨zs, hz, hm⟩ := waddrAll_z p ρ args _ hv
      match zs, hm with
      | [x, y], hm =>
        simp only [List.map_cons, List.map_nil, List.cons.injEq, and_true] at hm
        refine ⟨x * y, by simp [zaddr, hz], ?_⟩
        rw [hm.1, hm.2, ← Int.mul_emod]
      | [], hm => simp at hm
      | [x], hm => simp at hm
      | x :: y :: z :: t, hm => simp at hm
    · simp at h
  | .comp .add args, w, h => by simp [waddr] at h
  | .comp .mul args, w, h => by simp [waddr] at h
  | .comp (.other k) args, w, h => by simp [waddr] at h
theorem waddrAll_z (p : Int) (ρ : Env) : ∀ (es : List IR) (ws : List Int), waddrAll p ρ es = some ws →
    ∃ zs, zaddrAll p ρ es = some zs ∧ ws = zs.map (· % 2 ^ 32)
  | [], ws, h => by
    simp only [waddrAll, Option.some.injEq] at h
    subst h
    exact ⟨[], rfl, rfl⟩
  | i :: is, ws, h => by
    simp only [waddrAll] at h
    split at h
    · simp at h
    · next w hw =>
      split at h
      · simp at h
      · next ws' hws =>
        injection h with h
        subst h
        obtain ⟨z, hz, he⟩ := waddr_z p ρ i w hw
        obtain ⟨zs, hzs, hes⟩ := waddrAll_z p ρ is ws' hws
        exact ⟨z :: zs, by simp [zaddrAll, hz, hzs], by simp [he, hes]⟩
end

/-- In the range of `int`. -/
def IntRange (z : Int) : Prop := -2 ^ 31 ≤ z ∧ z < 2 ^ 31

/-- The primes of the C++ programs: four limbs, odd, lowest limb at least `2^31`, above `2^32`. -/
def PrimeShape (p : Int) : Prop := 2 ^ 33 ≤ p ∧ p < 2 ^ 256 ∧ p % 2 = 1 ∧ 2 ^ 31 ≤ p % 2 ^ 64

theorem limb_sub {p s : Int} (h0 : 0 ≤ s) (hs : s ≤ p % 2 ^ 64) :
    limb 0 (p - s) = limb 0 p - s ∧ ∀ i, 1 ≤ i → limb i (p - s) = limb i p := by
  have hq : (p - s) / 2 ^ 64 = p / 2 ^ 64 := by omega
  refine ⟨by simp only [limb, Nat.mul_zero, pow_zero, Int.ediv_one]; omega, ?_⟩
  intro i hi
  obtain ⟨j, rfl⟩ : ∃ j, i = j + 1 := ⟨i - 1, by omega⟩
  have hpow : (2 : Int) ^ (64 * (j + 1)) = 2 ^ 64 * 2 ^ (64 * j) := by
    rw [← pow_add]; congr 1; omega
  unfold limb
  rw [hpow, ← Int.ediv_ediv_of_nonneg (by positivity), ← Int.ediv_ediv_of_nonneg (by positivity), hq]

theorem toIntC_of_range {p v : Int} (hp : PrimeShape p) (hv : 0 ≤ v) (hv' : v < p) (h : IntRange (centred p v)) :
    toIntC p v = some (centred p v) := by
  obtain ⟨hp1, hp2, hp3, hp4⟩ := hp
  unfold IntRange at h
  unfold centred at *
  unfold toIntC
  split at h
  · next hle =>
    rw [if_pos h.2, if_pos hle]
  · next hle =>
    rw [if_neg hle]
    have hge : ¬ v < 2 ^ 31 := by omega
    rw [if_neg hge]
    obtain ⟨hl0, hl⟩ := limb_sub (p := p) (s := p - v) (by omega) (by omega)
    rw [show p - (p - v) = v by ring] at hl0 hl
    rw [hl 1 le_rfl, hl 2 (by omega), hl 3 (by omega), hl0, if_pos]
    · congr 1; ring
    · refine ⟨by omega, le_rfl, le_rfl, le_rfl, by omega⟩

mutual
theorem caddr_z (p : Int) (ρ : Env) (hp : PrimeShape p) (hρ : EnvOk p ρ) : ∀ (e e' : IR) (c : Int),
    convert e = .ok e' → (∀ k ∈ loads e, IntRange (centred p (ρ.load k))) → caddr p ρ e' = some c →
    zaddr p ρ e' = some c
  | .u32 n, e', c, h, hl, hc => by
    simp only [convert, Except.ok.injEq] at h
    subst h
    simpa [caddr, zaddr] using hc
  | .big n, e', c, h, hl, hc => by
    simp only [convert] at h
    split at h
    · injection h with h
      subst h
      simpa [caddr, zaddr] using hc
    · simp at h
  | .load k, e', c, h, hl, hc => by
    simp only [convert, Except.ok.injEq] at h
    subst h
    simp only [caddr, fvalAll, fval] at hc
    rw [toIntC_of_range hp (hρ.1 k).1 (hρ.1 k).2 (hl k (by simp [loads]))] at hc
    simpa [zaddr, fvalAll, fval] using hc
  | .comp .add args, e', c, h, hl, hc => by
    simp only [convert] at h
    split at h
    · next as' ha =>
      injection h with h
      subst h
      simp only [caddr] at hc
      split at hc
      · next a b hab =>
        split at hc
        · injection hc with hc
          have := caddrAll_z p ρ hp hρ args as' _ ha (fun k hk => hl k (by simpa [loads] using hk)) hab
          simp [zaddr, this, hc]
        · simp at hc
      · simp at hc
    · simp at h
  | .comp .mul args, e', c, h, hl, hc => by
    simp only [convert] at h
    split at h
    · next as' ha =>
      injection h with h
      subst h
      simp only [caddr] at hc
      split at hc
      · next a b hab =>
        split at hc
        · injection hc with hc
          have := caddrAll_z p ρ hp hρ args as' _ ha (fun k hk => hl k (by simpa [loads] using hk)) hab
          simp [zaddr, this, hc]
        · simp at hc
      · simp at hc
    · simp at h
  | .comp (.other k) args, e', c, h, hl, hc => by simp [convert] at h
  | .comp .toAddress args, e', c, h, hl, hc => by simp [convert] at h
  | .comp .mulAddress args, e', c, h, hl, hc => by simp [convert] at h
  | .comp .addAddress args, e', c, h, hl, hc => by simp [convert] at h
theorem caddrAll_z (p : Int) (ρ : Env) (hp : PrimeShape p) (hρ : EnvOk p ρ) : ∀ (es es' : List IR) (cs : List Int),
    convertAll es = .ok es' → (∀ k ∈ loadsAll es, IntRange (centred p (ρ.load k))) → caddrAll p ρ es' = some cs →
    zaddrAll p ρ es' = some cs
  | [], es', cs, h, hl, hc => by
    simp only [convertAll, Except.ok.injEq] at h
    subst h
    simpa [caddrAll, zaddrAll] using hc
  | i :: is, es', cs, h, hl, hc => by
    simp only [convertAll] at h
    split at h
    · next i' hi =>
      split at h
      · next is' his =>
        injection h with h
        subst h
        simp only [caddrAll] at hc
        split at hc
        · simp at hc
        · next c1 hc1 =>
          split at hc
          · simp at hc
          · next cs1 hcs1 =>
            injection hc with hc
            have h1 := caddr_z p ρ hp hρ i i' c1 hi (fun k hk => hl k (by simp [loadsAll, hk])) hc1
            have h2 := caddrAll_z p ρ hp hρ is is' cs1 his (fun k hk => hl k (by simp [loadsAll, hk])) hcs1
            simp [zaddrAll, h1, h2, hc]
      · simp at h
    · simp at h
end

/-! ## Linear addresses -/

theorem jumps_len_div {s : Nat} {d : Nat} {ds : List Nat} (hd : d ≠ 0) :
    ((d :: ds).prod * s) / d = ds.prod * s := by
  rw [List.prod_cons, Nat.mul_assoc, Nat.mul_div_cancel_left _ (Nat.pos_of_ne_zero hd)]

/-- Row-major position: cell number, counted in signals, of the first signal of the part of an array of dimensions `ds`,
with elements of `s` signals, that is selected by the (possibly fewer) indices. -/
def off : List Nat → List Int → Nat → Int
  | _ :: ds, i :: is, s => i * ((ds.prod * s : Nat) : Int) + off ds is s
  | _, _, _ => 0

theorem zaddrAll_append {p : Int} {ρ : Env} : ∀ {as bs : List IR} {xs ys : List Int},
    zaddrAll p ρ as = some xs → zaddrAll p ρ bs = some ys → zaddrAll p ρ (as ++ bs) = some (xs ++ ys)
  | [], bs, xs, ys, h, h' => by
    simp only [zaddrAll, Option.some.injEq] at h
    subst h
    simpa using h'
  | a :: as, bs, xs, ys, h, h' => by
    simp only [zaddrAll] at h
    split at h
    · simp at h
    · next v hv =>
      split at h
      · simp at h
      · next vs hvs =>
        injection h with h
        subst h
        simp [zaddrAll, hv, zaddrAll_append hvs h']

theorem jumps_z {p : Int} {ρ : Env} {s : Nat} : ∀ {dims : List Nat} {is js : List IR} {vs : List Int},
    jumps (dims.prod * s) dims is = .ok js → zaddrAll p ρ is = some vs →
    ∃ ws, zaddrAll p ρ js = some ws ∧ ws.sum = off dims vs s
  | dims, [], js, vs, h, hv => by
    simp only [jumps, Except.ok.injEq] at h
    simp only [zaddrAll, Option.some.injEq] at hv
    subst h; subst hv
    exact ⟨[], rfl, by cases dims <;> simp [off]⟩
  | [], i :: is, js, vs, h, hv => by simp [jumps] at h
  | d :: ds, i :: is, js, vs, h, hv => by
    simp only [jumps] at h
    split at h
    · simp at h
    · next hd =>
      rw [jumps_len_div hd] at h
      split at h
      · next js' hj =>
        injection h with h
        subst h
        simp only [zaddrAll] at hv
        split at hv
        · simp at hv
        · next v hv1 =>
          split at hv
          · simp at hv
          · next vs' hvs =>
            injection hv with hv
            subst hv
            obtain ⟨ws, hws, hsum⟩ := jumps_z hj hvs
            refine ⟨((ds.prod * s : Nat) : Int) * v :: ws, ?_, ?_⟩
            · simp [zaddrAll, zaddr, hv1, hws]
            · simp only [List.sum_cons, hsum, off]; ring
      · simp at h

theorem foldl_z {p : Int} {ρ : Env} : ∀ {is : List IR} {i : IR} {v : Int} {vs : List Int},
    zaddr p ρ i = some v → zaddrAll p ρ is = some vs →
    zaddr p ρ (is.foldl (fun acc x => .comp .addAddress [acc, x]) i) = some (v + vs.sum)
  | [], i, v, vs, h, hv => by
    simp only [zaddrAll, Option.some.injEq] at hv
    subst hv
    simpa using h
  | x :: xs, i, v, vs, h, hv => by
    simp only [zaddrAll] at hv
    split at hv
    · simp at hv
    · next w hw =>
      split at hv
      · simp at hv
      · next ws hws =>
        injection hv with hv
        subst hv
        have : zaddr p ρ (.comp .addAddress [i, x]) = some (v + w) := by simp [zaddr, zaddrAll, h, hw]
        simp only [List.foldl_cons, List.sum_cons]
        rw [foldl_z this hws]
        simp [add_assoc]

theorem foldStack_z {p : Int} {ρ : Env} {is : List IR} {e : IR} {vs : List Int}
    (h : foldStack .addAddress is = .ok e) (hv : zaddrAll p ρ is = some vs) : zaddr p ρ e = some vs.sum := by
  cases is with
  | nil => simp [foldStack] at h
  | cons i is =>
    simp only [foldStack, Except.ok.injEq] at h
    subst h
    simp only [zaddrAll] at hv
    split at hv
    · simp at hv
    · next w hw =>
      split at hv
      · simp at hv
      · next ws hws =>
        injection hv with hv
        subst hv
        simpa using foldl_z hw hws

/-- A field of a bus: where it starts inside the bus, its dimensions and the number of signals of one element. -/
structure Field where
  offset : Nat
  lengths : List Nat
  elem : Nat

/-- What the compiler records about a field (`BusAccessInfo`): the size is the total number of signals. -/
def Field.acc (f : Field) : BusAcc := ⟨f.offset, f.lengths.prod * f.elem, f.lengths⟩

/-- Position reached inside a bus by a chain of field accesses, each followed by index values. -/
def offFields : List Field → List (List Int) → Int
  | f :: fs, vs :: vss => f.offset + off f.lengths vs f.elem + offFields fs vss
  | _, _ => 0

/-- The index expressions have these values (after conversion). -/
def IdxVals (p : Int) (ρ : Env) (ix : List IR) (vs : List Int) : Prop :=
  ∃ is, filterIdx ix = .ok is ∧ zaddrAll p ρ is = some vs

theorem accJumps_z {p : Int} {ρ : Env} : ∀ {fs : List Field} {ixs : List (List IR)} {js : List IR}
    {vss : List (List Int)}, accJumps (fs.map Field.acc) ixs = .ok js → fs.length = ixs.length →
    List.Forall₂ (IdxVals p ρ) ixs vss →
    ∃ ws, zaddrAll p ρ js = some ws ∧ ws.sum = offFields fs vss
  | [], ixs, js, vss, h, hl, hv => by
    simp only [List.map_nil, accJumps, Except.ok.injEq] at h
    subst h
    exact ⟨[], rfl, by simp [offFields]⟩
  | f :: fs, [], js, vss, h, hl, hv => by simp at hl
  | f :: fs, ix :: ixs, js, vss, h, hl, hv => by
    cases hv with
    | cons h1 h2 =>
      obtain ⟨is, hf, hz⟩ := h1
      simp only [List.map_cons, accJumps, hf] at h
      split at h
      · simp at h
      · next js1 hj1 =>
        split at h
        · simp at h
        · next rest hr =>
          injection h with h
          subst h
          obtain ⟨ws1, hw1, hs1⟩ := jumps_z (s := f.elem) (dims := f.lengths) hj1 hz
          obtain ⟨ws2, hw2, hs2⟩ := accJumps_z hr (by simpa using hl) h2
          have h0 : ∃ w0, zaddrAll p ρ (if f.acc.offset ≠ 0 then [IR.u32 f.acc.offset] else []) = some w0 ∧
              w0.sum = (f.offset : Int) := by
            by_cases h0 : f.offset = 0
            · exact ⟨[], by simp [Field.acc, h0, zaddrAll], by simp [h0]⟩
            · exact ⟨[(f.offset : Int)], by simp [Field.acc, h0, zaddrAll, zaddr], by simp⟩
          obtain ⟨w0, hw0, hs0⟩ := h0
          refine ⟨_, zaddrAll_append (zaddrAll_append hw0 hw1) hw2, ?_⟩
          simp only [List.sum_append, hs0, hs1, hs2, offFields]

theorem fullAddress_z {p : Int} {ρ : Env} {at_ e : IR} {b : Int} {dims : List Nat} {s : Nat} {fs : List Field}
    {i0 : List IR} {ixs : List (List IR)} {v0 : List Int} {vss : List (List Int)}
    (h : fullAddress at_ dims (dims.prod * s) (fs.map Field.acc) (i0 :: ixs) = .ok e)
    (hb : zaddr p ρ at_ = some b) (h0 : IdxVals p ρ i0 v0) (hs : List.Forall₂ (IdxVals p ρ) ixs vss) :
    zaddr p ρ e = some (b + off dims v0 s + offFields fs vss) := by
  simp only [fullAddress, List.length_map] at h
  split at h
  · simp at h
  · next hl =>
    obtain ⟨is, hf, hz⟩ := h0
    rw [hf] at h
    simp only at h
    split at h
    · simp at h
    · next js hj =>
      split at h
      · simp at h
      · next more hm =>
        obtain ⟨w1, hw1, hs1⟩ := jumps_z hj hz
        obtain ⟨w2, hw2, hs2⟩ := accJumps_z hm (by simpa using hl) hs
        have hat : zaddrAll p ρ [at_] = some [b] := by simp [zaddrAll, hb]
        rw [foldStack_z h (zaddrAll_append (zaddrAll_append hw1 hw2) hat)]
        simp only [List.sum_append, hs1, hs2, List.sum_cons, List.sum_nil]
        congr 1
        ring

theorem filterOne_ok (i : IR) : ∃ i', filterOne i = .ok i' := by
  unfold filterOne
  split
  · next h => exact convert_ok i h
  · exact ⟨_, rfl⟩

theorem filterIdx_ok : ∀ is : List IR, ∃ is', filterIdx is = .ok is' ∧ is'.length = is.length
  | [] => ⟨[], rfl, rfl⟩
  | i :: is => by
    obtain ⟨i', hi⟩ := filterOne_ok i
    obtain ⟨is', his, hl⟩ := filterIdx_ok is
    exact ⟨i' :: is', by simp [filterIdx, hi, his], by simp [hl]⟩

theorem jumps_ok : ∀ (len : Nat) (ds : List Nat) (is : List IR), is.length ≤ ds.length → (∀ d ∈ ds, d ≠ 0) →
    ∃ js, jumps len ds is = .ok js
  | len, ds, [], h, hd => ⟨[], by simp [jumps]⟩
  | len, [], i :: is, h, hd => by simp at h
  | len, d :: ds, i :: is, h, hd => by
    obtain ⟨js, hj⟩ := jumps_ok (len / d) ds is (by simpa using h) (fun x hx => hd x (by simp [hx]))
    exact ⟨.comp .mulAddress [.u32 (len / d), i] :: js, by simp [jumps, hd d (by simp), hj]⟩

/-- No more indices than dimensions, no empty dimension. -/
def FitsAcc (a : BusAcc) (ix : List IR) : Prop := ix.length ≤ a.lengths.length ∧ ∀ d ∈ a.lengths, d ≠ 0

theorem accJumps_ok : ∀ {accs : List BusAcc} {ixs : List (List IR)}, List.Forall₂ FitsAcc accs ixs →
    ∃ js, accJumps accs ixs = .ok js
  | [], _, .nil => ⟨[], rfl⟩
  | a :: accs, ix :: ixs, .cons h1 h2 => by
    obtain ⟨is, hf, hl⟩ := filterIdx_ok ix
    obtain ⟨js, hj⟩ := jumps_ok a.size a.lengths is (by rw [hl]; exact h1.1) h1.2
    obtain ⟨rest, hr⟩ := accJumps_ok h2
    exact ⟨_, by simp [accJumps, hf, hj, hr]; rfl⟩

theorem fullAddress_ok {at_ : IR} {dims : List Nat} {size : Nat} {accs : List BusAcc} {i0 : List IR}
    {ixs : List (List IR)} (h0 : i0.length ≤ dims.length) (hd : ∀ d ∈ dims, d ≠ 0)
    (h : List.Forall₂ FitsAcc accs ixs) : ∃ e, fullAddress at_ dims size accs (i0 :: ixs) = .ok e := by
  obtain ⟨is, hf, hl⟩ := filterIdx_ok i0
  obtain ⟨js, hj⟩ := jumps_ok size dims is (by rw [hl]; exact h0) hd
  obtain ⟨more, hm⟩ := accJumps_ok h
  have hlen := h.length_eq
  simp only [fullAddress, hlen, ne_eq, not_true_eq_false, if_false, hf, hj, hm]
  cases hc : js ++ more ++ [at_] with
  | nil => simp at hc
  | cons x xs => exact ⟨_, rfl⟩

/-- Index values inside the dimensions. -/
def InRange : List Nat → List Int → Prop
  | _, [] => True
  | [], _ :: _ => False
  | d :: ds, i :: is => 0 ≤ i ∧ i < d ∧ InRange ds is

/-- Number of signals of the part selected by `n` indices. -/
def block (ds : List Nat) (n s : Nat) : Nat := (ds.drop n).prod * s

theorem off_range {s : Nat} : ∀ {ds : List Nat} {vs : List Int}, InRange ds vs →
    0 ≤ off ds vs s ∧ off ds vs s + block ds vs.length s ≤ ds.prod * s
  | ds, [], h => by cases ds <;> simp [off, block]
  | [], v :: vs, h => by simp [InRange] at h
  | d :: ds, v :: vs, h => by
    obtain ⟨h1, h2, h3⟩ := h
    obtain ⟨ih1, ih2⟩ := off_range (s := s) h3
    simp only [off, block, List.length_cons, List.drop_succ_cons, List.prod_cons] at *
    set P : Nat := ds.prod * s with hP
    have e1 : ((d * ds.prod * s : Nat) : Int) = d * P := by rw [hP]; push_cast; ring
    have hvP : 0 ≤ v * (P : Int) := mul_nonneg h1 (by positivity)
    have hle : (v + 1) * (P : Int) ≤ d * P := mul_le_mul_of_nonneg_right (by omega) (by positivity)
    have e2 : ((ds.prod : Int) * (s : Int)) = P := by rw [hP]; push_cast; rfl
    constructor
    · omega
    · have : (v + 1) * (P : Int) = v * P + P := by ring
      push_cast at *
      have e3 : (d : Int) * (ds.prod : Int) * (s : Int) = d * P := by rw [mul_assoc, e2]
      rw [e3]
      omega

/-- Lexicographic order of index lists. -/
def LexLt : List Int → List Int → Prop
  | a :: as, b :: bs => a < b ∨ (a = b ∧ LexLt as bs)
  | _, _ => False

theorem off_lex {s : Nat} : ∀ {ds : List Nat} {vs ws : List Int}, InRange ds vs → InRange ds ws →
    vs.length = ws.length → LexLt vs ws → off ds vs s + block ds vs.length s ≤ off ds ws s
  | ds, [], ws, _, _, _, h => by simp [LexLt] at h
  | [], v :: vs, _, h, _, _, _ => by simp [InRange] at h
  | d :: ds, v :: vs, [], _, _, hl, _ => by simp at hl
  | d :: ds, v :: vs, w :: ws, h1, h2, hl, h => by
    obtain ⟨a1, a2, a3⟩ := h1
    obtain ⟨b1, b2, b3⟩ := h2
    obtain ⟨r1, r2⟩ := off_range (s := s) a3
    obtain ⟨q1, q2⟩ := off_range (s := s) b3
    simp only [off, block, List.length_cons, List.drop_succ_cons] at *
    rcases h with h | ⟨rfl, h⟩
    · have hle : (v + 1) * ((ds.prod * s : Nat) : Int) ≤ w * ((ds.prod * s : Nat) : Int) :=
        mul_le_mul_of_nonneg_right (by omega) (by positivity)
      have : (v + 1) * ((ds.prod * s : Nat) : Int) = v * ((ds.prod * s : Nat) : Int) + ((ds.prod * s : Nat) : Int) := by
        ring
      push_cast at *
      omega
    · have := off_lex (s := s) a3 b3 (by simpa using hl) h
      unfold block at this
      push_cast at this
      omega

theorem jumpLoop_off : ∀ (ls is : List Nat) (j r : Nat), jumpLoop j ls.prod ls is = .ok r →
    (r : Int) = j + off ls (is.map fun n : Nat => (n : Int)) 1
  | ls, [], j, r, h => by
    simp only [jumpLoop, Except.ok.injEq] at h
    subst h
    cases ls <;> simp [off]
  | [], i :: is, j, r, h => by simp [jumpLoop] at h
  | l :: ls, i :: is, j, r, h => by
    simp only [jumpLoop] at h
    split at h
    · simp at h
    · next hl =>
      have hq : (l :: ls).prod / l = ls.prod := by
        simpa using jumps_len_div (s := 1) (ds := ls) hl
      rw [hq] at h
      rw [jumpLoop_off ls is _ r h]
      simp only [List.map_cons, off, Nat.mul_one]
      push_cast
      ring

theorem jumpLoop_ok : ∀ (ls is : List Nat) (j f : Nat), is.length ≤ ls.length → (∀ d ∈ ls, d ≠ 0) →
    ∃ r, jumpLoop j f ls is = .ok r
  | ls, [], j, f, _, _ => ⟨j, by simp [jumpLoop]⟩
  | [], i :: is, j, f, h, _ => by simp at h
  | l :: ls, i :: is, j, f, h, hd => by
    obtain ⟨r, hr⟩ := jumpLoop_ok ls is (j + i * (f / l)) (f / l) (by simpa using h) (fun x hx => hd x (by simp [hx]))
    exact ⟨r, by simp [jumpLoop, hd l (by simp), hr]⟩

/-! ## Folding of constant addresses -/

theorem zaddrAll_two {p : Int} {ρ : Env} {o : Op} (ho : o = .addAddress ∨ o = .mulAddress) {args : List IR} {z : Int}
    (h : zaddr p ρ (.comp o args) = some z) : ∃ a b, zaddrAll p ρ args = some [a, b] ∧
      z = (if o = .mulAddress then a * b else a + b) := by
  rcases ho with rfl | rfl
  · simp only [zaddr] at h
    split at h
    · next a b hab => injection h with h; exact ⟨a, b, hab, by simp [h]⟩
    · simp at h
  · simp only [zaddr] at h
    split at h
    · next a b hab => injection h with h; exact ⟨a, b, hab, by simp [h]⟩
    · simp at h

theorem zaddrAll_length {p : Int} {ρ : Env} : ∀ {es : List IR} {vs : List Int}, zaddrAll p ρ es = some vs →
    es.length = vs.length
  | [], vs, h => by simp only [zaddrAll, Option.some.injEq] at h; subst h; rfl
  | e :: es, vs, h => by
    simp only [zaddrAll] at h
    split at h
    · simp at h
    · split at h
      · simp at h
      · next hvs => injection h with h; subst h; simp [zaddrAll_length hvs]

theorem reduceOp_some {o : Op} {a b : IR} {v : Nat} (h : reduceOp o a b = .ok (some v)) :
    ∃ x y, a = .u32 x ∧ b = .u32 y ∧ v = (if o = .mulAddress then x * y else x + y) := by
  unfold reduceOp at h
  split at h
  · next x y =>
    split at h
    · next ho =>
      split at h
      · simp only [Except.ok.injEq, Option.some.injEq] at h
        exact ⟨x, y, rfl, rfl, by simp [ho, h]⟩
      · simp at h
    · next ho =>
      split at h
      · simp only [Except.ok.injEq, Option.some.injEq] at h
        exact ⟨x, y, rfl, rfl, by simp [ho, h]⟩
      · simp at h
  · simp at h

theorem reduceComp_eval {o : Op} {args : List IR} {e : IR} (h : reduceComp o args = .ok e) :
    e = .comp o args ∨ ((o = .addAddress ∨ o = .mulAddress) ∧ ∃ x y rest, args = .u32 x :: .u32 y :: rest ∧
      e = .u32 (if o = .mulAddress then x * y else x + y)) := by
  unfold reduceComp at h
  split at h
  all_goals first
    | (injection h with h; exact Or.inl h.symm)
    | skip
  all_goals
    split at h
    · split at h
      · next v hv =>
        injection h with h
        obtain ⟨x, y, rfl, rfl, hval⟩ := reduceOp_some hv
        exact Or.inr ⟨by simp, x, y, _, rfl, by rw [← h, hval]⟩
      · injection h with h; exact Or.inl h.symm
      · simp at h
    · simp at h

theorem zaddr_comp_congr {p : Int} {ρ : Env} {o : Op} {as bs : List IR} (h1 : fvalAll p ρ bs = fvalAll p ρ as)
    (h2 : zaddrAll p ρ bs = zaddrAll p ρ as) :
    fval p ρ (.comp o bs) = fval p ρ (.comp o as) ∧ zaddr p ρ (.comp o bs) = zaddr p ρ (.comp o as) := by
  refine ⟨by simp only [fval, h1], ?_⟩
  cases o <;> simp only [zaddr, h1, h2]

/-- Instructions whose address operators have exactly two operands, as all built by `translate.rs`. -/
def TwoOps : IR → Prop
  | .comp .mulAddress args => args.length = 2
  | .comp .addAddress args => args.length = 2
  | _ => True

mutual
/-- `TwoOps` for all instructions inside. -/
def AllTwo : IR → Prop
  | .u32 _ => True
  | .big _ => True
  | .load _ => True
  | .comp o args => TwoOps (.comp o args) ∧ AllTwoL args
/-- `AllTwo` of a list. -/
def AllTwoL : List IR → Prop
  | [] => True
  | i :: is => AllTwo i ∧ AllTwoL is
end

mutual
theorem reduce_eval (p : Int) (ρ : Env) : ∀ (e e' : IR), AllTwo e → reduce e = .ok e' →
    fval p ρ e' = fval p ρ e ∧ zaddr p ρ e' = zaddr p ρ e
  | .u32 n, e', _, h => by simp only [reduce, Except.ok.injEq] at h; subst h; exact ⟨rfl, rfl⟩
  | .big n, e', _, h => by simp only [reduce, Except.ok.injEq] at h; subst h; exact ⟨rfl, rfl⟩
  | .load n, e', _, h => by simp only [reduce, Except.ok.injEq] at h; subst h; exact ⟨rfl, rfl⟩
  | .comp o args, e', ht, h => by
    simp only [reduce] at h
    split at h
    · next as' ha =>
      obtain ⟨hl, h1, h2⟩ := reduceList_eval p ρ args as' ht.2 ha
      rcases reduceComp_eval h with rfl | ⟨ho, x, y, rest, rfl, rfl⟩
      · exact zaddr_comp_congr h1 h2
      · have hlen : args.length = 2 := by
          rcases ho with rfl | rfl <;> exact ht.1
        have hr : rest = [] := by
          rw [hlen] at hl
          simpa using hl
        subst hr
        have hc := zaddr_comp_congr (o := o) h1 h2
        rw [← hc.1, ← hc.2]
        rcases ho with rfl | rfl
        · simp [fval, fvalAll, zaddr, zaddrAll]
        · simp [fval, fvalAll, zaddr, zaddrAll]
    · simp at h
theorem reduceList_eval (p : Int) (ρ : Env) : ∀ (es es' : List IR), AllTwoL es → reduceList es = .ok es' →
    es'.length = es.length ∧ fvalAll p ρ es' = fvalAll p ρ es ∧ zaddrAll p ρ es' = zaddrAll p ρ es
  | [], es', _, h => by simp only [reduceList, Except.ok.injEq] at h; subst h; exact ⟨rfl, rfl, rfl⟩
  | i :: is, es', ht, h => by
    simp only [reduceList] at h
    split at h
    · next i' hi =>
      split at h
      · next is' his =>
        injection h with h
        subst h
        obtain ⟨a1, a2⟩ := reduce_eval p ρ i i' ht.1 hi
        obtain ⟨b0, b1, b2⟩ := reduceList_eval p ρ is is' ht.2 his
        refine ⟨by simp [b0], ?_, ?_⟩
        · simp only [fvalAll, a1, b1]
        · simp only [zaddrAll, a2, b2]
      · simp at h
    · simp at h
end

end Verif.Address
