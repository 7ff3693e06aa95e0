import Verif.Copy
import Mathlib.Tactic.Linarith

/-! Lemmas about the model of store instructions. -/

set_option linter.unusedSimpArgs false
set_option linter.unusedVariables false

namespace Verif.Copy

theorem putN_outside (fs : Int) : ∀ (n : Nat) (dst src : Int) (m : Mem) (a : Int),
    (∀ i : Nat, i < n → a ≠ dst + i * fs) → putN fs n dst src m a = m a := by
  intro n
  induction n with
  | zero => intro dst src m a h; rfl
  | succ n ih =>
    intro dst src m a h
    have h0 : a ≠ dst := by simpa using h 0 (by omega)
    have : ∀ i : Nat, i < n → a ≠ dst + fs + i * fs := by
      intro i hi hc
      apply h (i + 1) (by omega)
      rw [hc]; push_cast; ring
    rw [putN, ih _ _ _ _ this]
    simp [put, h0]

theorem putN_inside (fs : Int) (hfs : 0 < fs) : ∀ (n : Nat) (dst src : Int) (m : Mem),
    (∀ i j : Nat, i < n → j < n → src + i * fs ≠ dst + j * fs) →
    ∀ i : Nat, i < n → putN fs n dst src m (dst + i * fs) = m (src + i * fs) := by
  intro n
  induction n with
  | zero => intro dst src m _ i hi; omega
  | succ n ih =>
    intro dst src m hd i hi
    have hd' : ∀ i j : Nat, i < n → j < n → src + fs + i * fs ≠ dst + fs + j * fs := by
      intro i j hi hj hc
      exact hd i j (by omega) (by omega) (by linarith)
    rw [putN]
    rcases i with _ | i
    · rw [putN_outside]
      · simp [put]
      · intro k hk hc
        have : (0 : Int) < fs + k * fs := by positivity
        push_cast at hc; linarith
    · have e1 : dst + ((i + 1 : Nat) : Int) * fs = dst + fs + i * fs := by push_cast; ring
      have e2 : src + ((i + 1 : Nat) : Int) * fs = src + fs + i * fs := by push_cast; ring
      rw [e1, ih _ _ _ hd' i (by omega), ← e2]
      have := hd (i + 1) 0 (by omega) (by omega)
      have h0 : src + ((i + 1 : Nat) : Int) * fs ≠ dst := by simpa using this
      simp only [put, if_neg h0]

theorem exec_append (c : Cfg) (f : Nat) : ∀ (a b : List W) (s : St),
    exec c f (a ++ b) s = match exec c f a s with | some (none, s') => exec c f b s' | r => r := by
  intro a
  induction a with
  | nil => intro b s; simp [exec]
  | cons i is ih =>
    intro b s
    simp only [List.cons_append, exec]
    rcases h : step c f i s with _ | ⟨_ | n, s'⟩
    · rfl
    · simp [ih]
    · rfl

theorem exec_append_none (c : Cfg) (f : Nat) (a b : List W) (s s' : St) (h : exec c f a s = some (none, s')) :
    exec c f (a ++ b) s = exec c f b s' := by
  rw [exec_append, h]

theorem ifSelection_run (c : Cfg) (f : Nat) (t : Nat) : ∀ (vs : List (Nat × Nat)) (s : St), s.loc .aux0 = t →
    exec c f (ifSelection vs) s = some (none, { s with stack := (mapGet vs t : Int) :: s.stack }) := by
  intro vs
  induction vs with
  | nil => intro s h; simp [ifSelection, exec, step, mapGet]
  | cons v vs ih =>
    rcases v with ⟨k, n⟩
    intro s h
    by_cases hk : k = t
    · subst hk
      simp [ifSelection, exec, step, h, mapGet]
    · have hk' : ¬ ((t : Int) = (k : Int)) := by intro hc; apply hk; exact_mod_cast hc.symm
      simp [ifSelection, exec, step, h, mapGet, hk, hk', ih s h]

/-- Locals with some of them changed. -/
def upd (loc : Loc → Int) (l : Loc) (v : Int) : Loc → Int := fun x => if x = l then v else loc x

theorem sizeCode_dst (c : Cfg) (f : Nat) (z : Size) (s : St) :
    ∃ loc', (∀ l, l ≠ .aux0 → loc' l = s.loc l) ∧
      exec c f (sizeCode .tidDst z) s = some (none, { s with stack := (z.at c.td : Int) :: s.stack, loc := loc' }) := by
  cases z with
  | single n => exact ⟨s.loc, fun _ _ => rfl, by simp [sizeCode, exec, step, Size.at]⟩
  | multiple vs =>
    refine ⟨upd s.loc .aux0 c.td, fun l hl => by simp [upd, hl], ?_⟩
    rw [sizeCode, exec_append_none (s' := { s with loc := upd s.loc .aux0 c.td })]
    · rw [ifSelection_run c f c.td]
      · simp [Size.at]
      · simp [upd]
    · simp [exec, step]; rfl

theorem sizeCode_src (c : Cfg) (f : Nat) (z : Size) (s : St) :
    ∃ loc', (∀ l, l ≠ .aux0 → loc' l = s.loc l) ∧
      exec c f (sizeCode .tidSrc z) s = some (none, { s with stack := (z.at c.ts : Int) :: s.stack, loc := loc' }) := by
  cases z with
  | single n => exact ⟨s.loc, fun _ _ => rfl, by simp [sizeCode, exec, step, Size.at]⟩
  | multiple vs =>
    refine ⟨upd s.loc .aux0 c.ts, fun l hl => by simp [upd, hl], ?_⟩
    rw [sizeCode, exec_append_none (s' := { s with loc := upd s.loc .aux0 c.ts })]
    · rw [ifSelection_run c f c.ts]
      · simp [Size.at]
      · simp [upd]
    · simp [exec, step]; rfl

/-- The `minimum' code leaves the upper operand, the size of the source. -/
theorem minCode_run (c : Cfg) (f : Nat) (a b : Int) (st : List Int) (s : St) (h : s.stack = b :: a :: st) :
    ∃ loc', loc' .resultSize = b ∧ (∀ l, l ≠ .aux0 → l ≠ .aux1 → l ≠ .resultSize → loc' l = s.loc l) ∧
      exec c f minCode s = some (none, { s with stack := b :: st, loc := loc' }) := by
  by_cases hab : a < b
  · refine ⟨upd (upd (upd s.loc .aux0 b) .aux1 b) .resultSize b, by simp [upd], ?_, ?_⟩
    · intro l h1 h2 h3; simp [upd, h1, h2, h3]
    · simp [minCode, exec, step, h, hab, upd]; rfl
  · refine ⟨upd (upd (upd s.loc .aux0 b) .aux1 b) .resultSize b, by simp [upd], ?_, ?_⟩
    · intro l h1 h2 h3; simp [upd, h1, h2, h3]
    · simp [minCode, exec, step, h, hab, upd]; rfl

/-- The body of the copying loop. -/
def loopBody (fs : Int) : List W :=
  [.get .copyCounter, .eqz, .brIf 1,
    .get .storeAux1, .get .storeAux2, .frCopy,
    .get .copyCounter, .const 1, .sub, .set .copyCounter,
    .get .storeAux1, .const fs, .add, .set .storeAux1,
    .get .storeAux2, .const fs, .add, .set .storeAux2,
    .br 0]

theorem loopBody_zero (c : Cfg) (f : Nat) (fs : Int) (s : St) (h : s.loc .copyCounter = 0) :
    exec c f (loopBody fs) s = some (some 1, s) := by
  simp [loopBody, exec, step, h]

theorem loopBody_succ (c : Cfg) (f : Nat) (fs : Int) (s : St) (h : s.loc .copyCounter ≠ 0) :
    exec c f (loopBody fs) s = some (some 0,
      { s with mem := put s.mem (s.loc .storeAux1) (s.loc .storeAux2),
               loc := upd (upd (upd s.loc .copyCounter (s.loc .copyCounter - 1)) .storeAux1 (s.loc .storeAux1 + fs))
                 .storeAux2 (s.loc .storeAux2 + fs) }) := by
  simp [loopBody, exec, step, h]
  rfl

theorem iter_copy (c : Cfg) (f : Nat) (fs : Int) : ∀ (n k : Nat) (s : St), n < k → s.loc .copyCounter = n →
    ∃ loc', (∀ l, l ≠ .copyCounter → l ≠ .storeAux1 → l ≠ .storeAux2 → loc' l = s.loc l) ∧
      iter (fun s => exec c f (loopBody fs) s) k s =
        some (some 0, { s with mem := putN fs n (s.loc .storeAux1) (s.loc .storeAux2) s.mem, loc := loc' }) := by
  intro n
  induction n with
  | zero =>
    intro k s hk h
    obtain ⟨k, rfl⟩ : ∃ k', k = k' + 1 := ⟨k - 1, by omega⟩
    refine ⟨s.loc, fun _ _ _ _ => rfl, ?_⟩
    rw [iter, loopBody_zero c f fs s (by simpa using h)]
    rfl
  | succ n ih =>
    intro k s hk h
    obtain ⟨k, rfl⟩ : ∃ k', k = k' + 1 := ⟨k - 1, by omega⟩
    have h0 : s.loc .copyCounter ≠ 0 := by rw [h]; push_cast; omega
    obtain ⟨loc', hl, he⟩ := ih k
      { s with mem := put s.mem (s.loc .storeAux1) (s.loc .storeAux2),
               loc := upd (upd (upd s.loc .copyCounter (s.loc .copyCounter - 1)) .storeAux1 (s.loc .storeAux1 + fs))
                 .storeAux2 (s.loc .storeAux2 + fs) } (by omega)
      (by simp [upd, h])
    refine ⟨loc', ?_, ?_⟩
    · intro l h1 h2 h3
      rw [hl l h1 h2 h3]; simp [upd, h1, h2, h3]
    · rw [iter, loopBody_succ c f fs s h0]
      simp only [he]
      simp [upd, putN]

theorem copyLoop_run (c : Cfg) (f : Nat) (fs : Int) (n : Nat) (s : St) (hf : n < f) (h : s.loc .copyCounter = n) :
    ∃ loc', (∀ l, l ≠ .copyCounter → l ≠ .storeAux1 → l ≠ .storeAux2 → loc' l = s.loc l) ∧
      exec c f (copyLoop fs) s =
        some (none, { s with mem := putN fs n (s.loc .storeAux1) (s.loc .storeAux2) s.mem, loc := loc' }) := by
  obtain ⟨loc', hl, he⟩ := iter_copy c f fs n f s hf h
  refine ⟨loc', hl, ?_⟩
  have : copyLoop fs = [.block [.loop (loopBody fs)]] := rfl
  rw [this]
  simp only [exec, step, he]

/-- Number of elements the wasm code copies. -/
def wCount (d s : Size) (td ts : Nat) : Nat :=
  if listed d = 0 ∨ listed s = 0 then 0
  else if oneElem d s then 1
  else
    match d, s with
    | .single a, .single b => min a b
    | _, _ => s.at ts

theorem copyTail_run (c : Cfg) (f : Nat) (fs : Int) (n : Nat) (s : St) (st : List Int) (hf : n < f) (h : s.stack = (n : Int) :: st) :
    ∃ loc', loc' .resultSize = s.loc .resultSize ∧
      exec c f ([.set .copyCounter, .srcAddr, .set .storeAux2] ++ copyLoop fs) s =
        some (none, { s with stack := st, mem := putN fs n (s.loc .storeAux1) c.src s.mem, loc := loc' }) := by
  obtain ⟨loc', hl, he⟩ := copyLoop_run c f fs n
    { s with stack := st, loc := upd (upd s.loc .copyCounter n) .storeAux2 c.src } hf (by simp [upd])
  refine ⟨loc', ?_, ?_⟩
  · rw [hl _ (by decide) (by decide) (by decide)]; simp [upd]
  · rw [exec_append_none (s' := { s with stack := st, loc := upd (upd s.loc .copyCounter n) .storeAux2 c.src })]
    · rw [he]; simp [upd]
    · simp [exec, step, h]; rfl

theorem copyCode_run (c : Cfg) (f : Nat) (fs : Int) (d z : Size) (s : St) (st : List Int) (hd : listed d ≠ 0)
    (hs : listed z ≠ 0) (hf : wCount d z c.td c.ts < f) (h : s.stack = c.dst :: st) :
    ∃ loc', (oneElem d z = false → (∀ a b, ¬ (d = .single a ∧ z = .single b)) →
        loc' .resultSize = (wCount d z c.td c.ts : Int)) ∧
      exec c f (copyCode fs d z) s =
        some (none, { s with stack := st, mem := putN fs (wCount d z c.td c.ts) c.dst c.src s.mem, loc := loc' }) := by
  have hw : ¬ (listed d = 0 ∨ listed z = 0) := by simp [hd, hs]
  by_cases h1 : oneElem d z = true
  · refine ⟨s.loc, by simp [h1], ?_⟩
    simp [copyCode, h1, exec, step, h, wCount, hw, putN]
  · have h1' : oneElem d z = false := by simpa using h1
    have hset : exec c f [.set .storeAux1] s = some (none, { s with stack := st, loc := upd s.loc .storeAux1 c.dst }) := by
      simp [exec, step, h]; rfl
    by_cases hss : ∃ a b, d = .single a ∧ z = .single b
    · obtain ⟨a, b, rfl, rfl⟩ := hss
      have hn : wCount (.single a) (.single b) c.td c.ts = min a b := by simp [wCount, hw, h1]
      obtain ⟨loc', -, he⟩ := copyTail_run c f fs (min a b)
        { s with stack := ((min a b : Nat) : Int) :: st, loc := upd s.loc .storeAux1 c.dst } st (by rw [← hn]; exact hf) rfl
      refine ⟨loc', fun _ hno => absurd ⟨rfl, rfl⟩ (hno a b), ?_⟩
      rw [copyCode, if_neg (by simp [h1']), List.append_assoc, List.append_assoc, exec_append_none (h := hset),
        exec_append_none (s' := { s with stack := ((min a b : Nat) : Int) :: st, loc := upd s.loc .storeAux1 c.dst }), he, hn]
      · simp [upd]
      · simp [exec, step]
    · have hn : wCount d z c.td c.ts = z.at c.ts := by
        cases d <;> cases z <;> simp [wCount, hw, h1] <;> exact absurd ⟨_, _, rfl, rfl⟩ hss
      have hcode : copyCode fs d z = [.set .storeAux1] ++ (sizeCode .tidDst d ++ (sizeCode .tidSrc z ++ (minCode ++
          ([.set .copyCounter, .srcAddr, .set .storeAux2] ++ copyLoop fs)))) := by
        unfold copyCode
        rw [if_neg (by simp [h1'])]
        cases d <;> cases z <;> first | exact absurd ⟨_, _, rfl, rfl⟩ hss | simp only [List.append_assoc]
      obtain ⟨l1, hl1, e1⟩ := sizeCode_dst c f d { s with stack := st, loc := upd s.loc .storeAux1 c.dst }
      obtain ⟨l2, hl2, e2⟩ := sizeCode_src c f z { s with stack := (d.at c.td : Int) :: st, loc := l1 }
      obtain ⟨l3, hr3, hl3, e3⟩ := minCode_run c f (d.at c.td) (z.at c.ts) st
        { s with stack := (z.at c.ts : Int) :: (d.at c.td : Int) :: st, loc := l2 } rfl
      obtain ⟨l4, hr4, e4⟩ := copyTail_run c f fs (z.at c.ts) { s with stack := (z.at c.ts : Int) :: st, loc := l3 } st
        (by rw [← hn]; exact hf) rfl
      refine ⟨l4, fun _ _ => by rw [hr4, hn]; exact hr3, ?_⟩
      rw [hcode, exec_append_none (h := hset), exec_append_none (h := e1), exec_append_none (h := e2),
        exec_append_none (h := e3), e4, hn]
      have : l3 .storeAux1 = c.dst := by
        rw [hl3 _ (by decide) (by decide) (by decide)]
        show l2 .storeAux1 = _
        rw [hl2 _ (by decide)]
        show l1 .storeAux1 = _
        rw [hl1 _ (by decide)]
        simp [upd]
      simp [this]

theorem wStore_run (c : Cfg) (f : Nat) (fs : Int) (sub : Bool) (d z : Size) (s : St) (hd : listed d ≠ 0) (hs : listed z ≠ 0)
    (hf : wCount d z c.td c.ts < f) :
    ∃ loc', exec c f (wStore fs sub d z) s = some (none,
      { s with mem := putN fs (wCount d z c.td c.ts) c.dst c.src s.mem, loc := loc',
               ctr := if sub then s.ctr - wCount d z c.td c.ts else s.ctr,
               runs := if sub ∧ s.ctr - wCount d z c.td c.ts = 0 then s.runs + 1 else s.runs }) := by
  have hw : ¬ (listed d = 0 ∨ listed z = 0) := by simp [hd, hs]
  obtain ⟨loc', hr, he⟩ := copyCode_run c f fs d z { s with stack := c.dst :: s.stack } s.stack hd hs hf rfl
  refine ⟨loc', ?_⟩
  have h0 : exec c f [.dstAddr] s = some (none, { s with stack := c.dst :: s.stack }) := by simp [exec, step]
  rw [wStore, if_neg hw, List.append_assoc, exec_append_none (h := h0), exec_append_none (h := he)]
  cases sub with
  | false => simp [exec]
  | true =>
    have ham : exec c f (amountCode d z)
        ⟨s.ctr :: s.stack, loc', putN fs (wCount d z c.td c.ts) c.dst c.src s.mem, s.ctr, s.runs⟩ =
        some (none, ⟨(wCount d z c.td c.ts : Int) :: s.ctr :: s.stack, loc',
          putN fs (wCount d z c.td c.ts) c.dst c.src s.mem, s.ctr, s.runs⟩) := by
      by_cases h1 : oneElem d z = true
      · simp [amountCode, h1, exec, step, wCount, hw]
      · have h1' : oneElem d z = false := by simpa using h1
        by_cases hss : ∃ a b, d = .single a ∧ z = .single b
        · obtain ⟨a, b, rfl, rfl⟩ := hss
          simp [amountCode, h1, exec, step, wCount, hw]
        · have := hr h1' (fun a b hc => hss ⟨a, b, hc⟩)
          have hc : amountCode d z = [.get .resultSize] := by
            unfold amountCode
            rw [if_neg (by simp [h1'])]
            cases d <;> cases z <;> first | exact absurd ⟨_, _, rfl, rfl⟩ hss | rfl
          rw [hc]
          simp [exec, step, this]
    have h2 : exec c f [.ctr] ⟨s.stack, loc', putN fs (wCount d z c.td c.ts) c.dst c.src s.mem, s.ctr, s.runs⟩ =
        some (none, ⟨s.ctr :: s.stack, loc', putN fs (wCount d z c.td c.ts) c.dst c.src s.mem, s.ctr, s.runs⟩) := by
      simp [exec, step]
    rw [if_pos rfl, List.append_assoc, exec_append_none (h := h2), exec_append_none (h := ham)]
    by_cases hz : s.ctr - (wCount d z c.td c.ts : Int) = 0
    · simp [exec, step, hz]
    · simp [exec, step, hz]

end Verif.Copy
