import Verif.Log
import Verif.WMemLemmas
import Mathlib.Data.Nat.Digits.Defs
import Mathlib.Data.Nat.Digits.Lemmas

/-!
# Lemmas on `log` and on messages
-/

set_option linter.unusedVariables false

namespace Verif.Log
open Verif.WMem

theorem load_one (b : Bytes) (a : Nat) : load b a 1 = b a % 256 := by simp [load]

/-- Bytes of a text. -/
def IsBytes (s : List Nat) : Prop := ∀ c ∈ s, 0 < c ∧ c < 256

/-- At `a` stands the text `s` and a zero. -/
def At (b : Bytes) (a : Nat) (s : List Nat) : Prop :=
  (∀ i (h : i < s.length), load b (a + i) 1 = s[i]) ∧ load b (a + s.length) 1 = 0

theorem write_nil (b : Bytes) (a : Nat) : write b (a, []) = b := by
  funext x
  simp only [write, List.length_nil, Nat.add_zero]
  rw [if_neg (by omega)]

theorem write_append (b : Bytes) (a : Nat) (s t : List Nat) :
    write (write b (a, s)) (a + s.length, t) = write b (a, s ++ t) := by
  funext x
  simp only [write, List.length_append]
  by_cases h1 : a ≤ x ∧ x < a + s.length
  · rw [if_neg (by omega), if_pos h1, if_pos (by omega)]
    rw [List.getD_append _ _ _ _ (by omega)]
  · by_cases h2 : a + s.length ≤ x ∧ x < a + s.length + t.length
    · rw [if_pos h2, if_pos (by omega), List.getD_append_right _ _ _ _ (by omega)]
      congr 1
      omega
    · rw [if_neg h2, if_neg h1, if_neg (by omega)]

theorem store_write (b : Bytes) (a c : Nat) (h : c < 256) : store b a 1 c = write b (a, [c]) := by
  funext x
  simp only [store, write, List.length_singleton]
  by_cases h1 : a ≤ x ∧ x < a + 1
  · have : x = a := by omega
    subst this
    rw [if_pos h1, if_pos h1]
    simp [Nat.mod_eq_of_lt h]
  · rw [if_neg h1, if_neg h1]

theorem store_write_cons (b : Bytes) (a c : Nat) (s : List Nat) (h : c < 256) :
    write (store b a 1 c) (a + 1, s) = write b (a, c :: s) := by
  rw [store_write b a c h]
  exact write_append b a [c] s

theorem load_write_out {b : Bytes} {a x : Nat} {s : List Nat} (h : x < a ∨ a + s.length ≤ x) :
    load (write b (a, s)) x 1 = load b x 1 := by
  rw [load_one, load_one, write_out h]

theorem load_write_in {b : Bytes} {a i : Nat} {s : List Nat} (h : i < s.length) (hs : s[i] < 256) :
    load (write b (a, s)) (a + i) 1 = s[i] := by
  rw [load_one, show a + i = (a, s).1 + i from rfl, write_in (by exact h)]
  show s.getD i 0 % 256 = s[i]
  rw [List.getD_eq_getElem _ _ h, Nat.mod_eq_of_lt hs]

theorem At.tail {b : Bytes} {a c : Nat} {s : List Nat} (h : At b a (c :: s)) : At b (a + 1) s := by
  refine ⟨fun i hi => ?_, ?_⟩
  · have := h.1 (i + 1) (by simpa using hi)
    rw [show a + 1 + i = a + (i + 1) by omega, this]
    rfl
  · have := h.2
    rw [List.length_cons] at this
    rw [show a + 1 + s.length = a + (s.length + 1) by omega]
    exact this

theorem At.congr {b b' : Bytes} {a : Nat} {s : List Nat} (h : At b a s)
    (hb : ∀ i, i ≤ s.length → load b' (a + i) 1 = load b (a + i) 1) : At b' a s :=
  ⟨fun i hi => by rw [hb i (by omega), h.1 i hi], by rw [hb _ (by omega), h.2]⟩

theorem copyLoop_spec (fin : Nat) : ∀ (s : List Nat) (n a bm : Nat) (b : Bytes), IsBytes s → At b a s →
    s.length < n → fin < a → bm + s.length ≤ a → a + s.length < 2 ^ 32 →
    copyLoop fin n a bm b = some (bm + s.length, write b (bm, s)) := by
  intro s
  induction s with
  | nil =>
    intro n a bm b hs ha hn hf hbm hsz
    obtain ⟨n, rfl⟩ : ∃ k, n = k + 1 := ⟨n - 1, by simp at hn; omega⟩
    have h0 : load b a 1 = 0 := by simpa using ha.2
    rw [copyLoop, if_neg (by omega), if_pos h0, write_nil]
    rfl
  | cons c s ih =>
    intro n a bm b hs ha hn hf hbm hsz
    simp only [List.length_cons] at hn hbm hsz
    obtain ⟨n, rfl⟩ : ∃ k, n = k + 1 := ⟨n - 1, by omega⟩
    have hc := hs c (by simp)
    have h0 : load b a 1 = c := ha.1 0 (by simp)
    rw [copyLoop, if_neg (by omega), h0, if_neg (by omega), Nat.mod_eq_of_lt (by omega),
      Nat.mod_eq_of_lt (by omega)]
    rw [ih n (a + 1) (bm + 1) _ (fun x hx => hs x (by simp [hx])) ?_ (by omega) (by omega) (by omega)
      (by omega)]
    · rw [store_write_cons _ _ _ _ hc.2, List.length_cons]
      congr 2
      omega
    · refine ha.tail.congr fun i hi => ?_
      rw [load_store_out (by omega)]

theorem zeroLoop_spec (fin : Nat) : ∀ (k n bm : Nat) (b : Bytes), bm + k = fin → k < n → fin < 2 ^ 32 →
    zeroLoop fin n bm b = some (write b (bm, List.replicate k 0)) := by
  intro k
  induction k with
  | zero =>
    intro n bm b hk hn hf
    obtain ⟨n, rfl⟩ : ∃ k, n = k + 1 := ⟨n - 1, by omega⟩
    rw [zeroLoop, if_pos (by omega)]
    simp [write_nil]
  | succ k ih =>
    intro n bm b hk hn hf
    obtain ⟨n, rfl⟩ : ∃ k, n = k + 1 := ⟨n - 1, by omega⟩
    rw [zeroLoop, if_neg (by omega), Nat.mod_eq_of_lt (by omega), ih n (bm + 1) _ (by omega) (by omega) hf,
      store_write_cons _ _ _ _ (by omega)]
    rfl

theorem putChars_spec : ∀ (cs : List Nat) (bm : Nat) (b : Bytes), IsBytes cs → bm + cs.length < 2 ^ 32 →
    putChars cs (bm, b) = (bm + cs.length, write b (bm, cs)) := by
  intro cs
  induction cs with
  | nil => intro bm b _ _; simp [putChars, write_nil]
  | cons c cs ih =>
    intro bm b hs h
    simp only [List.length_cons] at h
    have hc := hs c (by simp)
    rw [putChars]
    simp only []
    rw [Nat.mod_eq_of_lt (by omega), ih _ _ (fun x hx => hs x (by simp [hx])) (by omega),
      store_write_cons _ _ _ _ hc.2, List.length_cons]
    congr 1
    omega

/-- The `k + 1` decimal digits of a number, highest first. -/
def tops : Nat → Nat → List Nat
  | 0, l => [l]
  | k + 1, l => l / 10 ^ (k + 1) :: tops k (l % 10 ^ (k + 1))

theorem tops_length : ∀ k l, (tops k l).length = k + 1
  | 0, _ => rfl
  | k + 1, l => by rw [tops, List.length_cons, tops_length k]

theorem tops_lt : ∀ k l, l < 10 ^ (k + 1) → ∀ d ∈ tops k l, d < 10
  | 0, l, h, d, hd => by
      rw [tops, List.mem_singleton] at hd
      omega
  | k + 1, l, h, d, hd => by
      rw [tops, List.mem_cons] at hd
      rcases hd with rfl | hd
      · exact Nat.div_lt_of_lt_mul (by rw [← pow_succ]; exact h)
      · exact tops_lt k _ (Nat.mod_lt _ (by positivity)) d hd

theorem tops_value : ∀ k l, Nat.ofDigits 10 (tops k l).reverse = l
  | 0, l => by simp [tops]
  | k + 1, l => by
      rw [tops, List.reverse_cons, Nat.ofDigits_append, tops_value k, List.length_reverse, tops_length]
      simp only [Nat.ofDigits_singleton]
      exact Nat.mod_add_div l (10 ^ (k + 1))

theorem tops_head : ∀ k l, (tops k l).head? = some (l / 10 ^ k)
  | 0, l => by simp [tops]
  | k + 1, l => rfl

theorem dec_tops (k l : Nat) (h : l < 10 ^ (k + 1)) (hk : k = 0 ∨ 10 ^ k ≤ l) :
    dec l = (tops k l).map (48 + ·) := by
  unfold dec
  by_cases h0 : l = 0
  · subst h0
    rcases hk with rfl | hk
    · rfl
    · have : 0 < 10 ^ k := by positivity
      omega
  · rw [if_neg h0]
    have hd : Nat.digits 10 (Nat.ofDigits 10 (tops k l).reverse) = (tops k l).reverse := by
      refine Nat.digits_ofDigits 10 (by omega) _ (fun d hd => tops_lt k l h d (by simpa using hd)) ?_
      intro hne
      rw [List.getLast_reverse]
      have := tops_head k l
      rw [List.head?_eq_some_head (by intro hq; simp [hq] at hne)] at this
      rw [Option.some.inj this]
      have hp : 0 < 10 ^ k := by positivity
      rcases hk with rfl | hk
      · simpa using h0
      · have := Nat.div_pos hk hp
        omega
    rw [tops_value] at hd
    rw [hd, List.reverse_reverse]

theorem digitLoop_spec : ∀ (k n l bm : Nat) (b : Bytes), l < 10 ^ (k + 1) → k + 1 < n →
    bm + (k + 1) < 2 ^ 32 →
    digitLoop n (10 ^ k) l (bm, b) = some (bm + (k + 1), write b (bm, (tops k l).map (48 + ·))) := by
  intro k
  induction k with
  | zero =>
    intro n l bm b hl hn hb
    obtain ⟨n, rfl⟩ : ∃ k, n = k + 2 := ⟨n - 2, by omega⟩
    rw [digitLoop, if_neg (by simp)]
    simp only [pow_zero, Nat.div_one]
    rw [show 1 / 10 = 0 from rfl, digitLoop, if_pos rfl, Nat.mod_eq_of_lt (a := bm + 1) (by omega),
      Nat.mod_eq_of_lt (a := l + 48) (by omega), store_write _ _ _ (by omega), Nat.add_comm l 48]
    rfl
  | succ k ih =>
    intro n l bm b hl hn hb
    obtain ⟨n, rfl⟩ : ∃ k, n = k + 1 := ⟨n - 1, by omega⟩
    have hp : 0 < 10 ^ (k + 1) := by positivity
    have hd : l / 10 ^ (k + 1) < 10 := Nat.div_lt_of_lt_mul (by rw [← pow_succ]; exact hl)
    rw [digitLoop, if_neg (by omega)]
    simp only []
    rw [Nat.mod_eq_of_lt (a := bm + 1) (by omega), Nat.mod_eq_of_lt (a := l / 10 ^ (k + 1) + 48) (by omega),
      show 10 ^ (k + 1) / 10 = 10 ^ k by rw [pow_succ, Nat.mul_div_cancel _ (by omega)],
      ih n _ (bm + 1) _ (Nat.mod_lt _ hp) (by omega) (by omega), store_write_cons _ _ _ _ (by omega),
      Nat.add_comm (l / 10 ^ (k + 1)) 48]
    rw [tops, List.map_cons]
    congr 2
    omega

/-- The loop on `$p10` finds the highest power of ten not above the number of the line. -/
theorem powLoop_spec (l : Nat) (hl : l < 1410065408) : ∀ (d k n : Nat), k + d = 9 → d < n →
    (k = 0 ∨ 10 ^ k ≤ l) →
    ∃ j, j ≤ 9 ∧ powLoop l n (10 ^ k) = some (10 ^ j) ∧ l < 10 ^ (j + 1) ∧ (j = 0 ∨ 10 ^ j ≤ l) := by
  intro d
  induction d with
  | zero =>
    intro k n hk hn hle
    obtain ⟨n, rfl⟩ : ∃ k, n = k + 1 := ⟨n - 1, by omega⟩
    have : k = 9 := by omega
    subst this
    refine ⟨9, by omega, ?_, by omega, hle⟩
    rw [powLoop, if_pos]
    have : 10 ^ 9 * 10 % 2 ^ 32 = 1410065408 := by norm_num
    rw [this]
    exact hl
  | succ d ih =>
    intro k n hk hn hle
    obtain ⟨n, rfl⟩ : ∃ k, n = k + 1 := ⟨n - 1, by omega⟩
    have h1 : 10 ^ k * 10 % 2 ^ 32 = 10 ^ (k + 1) := by
      rw [← pow_succ]
      refine Nat.mod_eq_of_lt ?_
      calc 10 ^ (k + 1) ≤ 10 ^ 9 := Nat.pow_le_pow_right (by omega) (by omega)
        _ < 2 ^ 32 := by norm_num
    rw [powLoop, h1]
    by_cases h : 10 ^ (k + 1) > l
    · rw [if_pos h]
      exact ⟨k, by omega, rfl, h, hle⟩
    · rw [if_neg h]
      exact ih (k + 1) n (by omega) (by omega) (Or.inr (by omega))

variable {p : Prod}

theorem getMessage_spec : ∀ (s : List Nat) (n c : Nat) (b : Bytes), IsBytes s →
    load b p.msgCounter 4 = c → c + s.length ≤ 256 → s.length < n → buf p + 256 < 2 ^ 32 →
    (∀ i (h : i < s.length), load b (buf p + c + i) 1 = s[i]) →
    (c + s.length = 256 ∨ load b (buf p + c + s.length) 1 = 0) →
    ∃ b', getMessage p n b = some (s, b') ∧
      ∀ x, x < p.msgCounter ∨ p.msgCounter + 4 ≤ x → b' x = b x := by
  intro s
  induction s with
  | nil =>
    intro n c b hs hc hle hn hb h1 h2
    obtain ⟨n, rfl⟩ : ∃ k, n = k + 1 := ⟨n - 1, by simp at hn; omega⟩
    by_cases h : 256 ≤ c
    · refine ⟨b, ?_, fun _ _ => rfl⟩
      have : getMessageChar p b = (0, b) := by
        unfold getMessageChar
        rw [hc]
        exact if_pos h
      rw [getMessage, this]
      rfl
    · have hz : load b (buf p + c) 1 = 0 := by
        rcases h2 with h2 | h2
        · simp at h2; omega
        · simpa using h2
      have : getMessageChar p b = (0, store b p.msgCounter 4 (c + 1)) := by
        unfold getMessageChar
        rw [hc]
        simp only []
        rw [if_neg h, Nat.mod_eq_of_lt (a := buf p + c) (by omega), Nat.mod_eq_of_lt (a := c + 1) (by omega), hz]
      refine ⟨store b p.msgCounter 4 (c + 1), ?_, fun x hx => store_out (by omega)⟩
      rw [getMessage, this]
      rfl
  | cons d s ih =>
    intro n c b hs hc hle hn hb h1 h2
    simp only [List.length_cons] at hle hn h2
    obtain ⟨n, rfl⟩ : ∃ k, n = k + 1 := ⟨n - 1, by omega⟩
    have hd := hs d (by simp)
    have h0 : load b (buf p + c) 1 = d := h1 0 (by simp)
    have hch : getMessageChar p b = (d, store b p.msgCounter 4 (c + 1)) := by
      unfold getMessageChar
      rw [hc]
      simp only []
      rw [if_neg (by omega), Nat.mod_eq_of_lt (a := buf p + c) (by omega),
        Nat.mod_eq_of_lt (a := c + 1) (by omega), h0]
    have hbuf : p.msgCounter + 4 = buf p := rfl
    obtain ⟨b', hg, hb'⟩ := ih n (c + 1) (store b p.msgCounter 4 (c + 1)) (fun x hx => hs x (by simp [hx]))
      (by rw [load_store, Nat.mod_eq_of_lt (by omega)]) (by omega) (by omega) hb
      (fun i hi => by
        rw [load_store_out (by omega)]
        have := h1 (i + 1) (by simpa using hi)
        rw [show buf p + (c + 1) + i = buf p + c + (i + 1) by omega, this]
        rfl)
      (by
        rcases h2 with h2 | h2
        · left; omega
        · right
          rw [load_store_out (by omega), show buf p + (c + 1) + s.length = buf p + c + (s.length + 1) by omega]
          exact h2)
    refine ⟨b', ?_, fun x hx => by rw [hb' x hx, store_out (by omega)]⟩
    rw [getMessage, hch]
    simp only []
    rw [if_neg (by omega), hg]
    rfl

/-- A text in the buffer, with the counter at its start. -/
theorem buffer_message {b : Bytes} {s : List Nat} (hs : IsBytes s) (hl : s.length ≤ 256)
    (hb : buf p + 256 < 2 ^ 32) :
    ∃ b', getMessage p 257 (store (write b (buf p, s ++ List.replicate (256 - s.length) 0)) p.msgCounter 4 0) =
        some (s, b') ∧ ∀ x, x < p.msgCounter ∨ buf p + 256 ≤ x → b' x = b x := by
  have hbuf : p.msgCounter + 4 = buf p := rfl
  have hin : ∀ i, i < s.length → load (write b (buf p, s ++ List.replicate (256 - s.length) 0)) (buf p + i) 1 =
      s.getD i 0 := by
    intro i hi
    have := load_write_in (b := b) (a := buf p) (s := s ++ List.replicate (256 - s.length) 0) (i := i)
      (by simp; omega) (by
        rw [List.getElem_append_left hi]
        exact (hs _ (List.getElem_mem hi)).2)
    rw [this, List.getElem_append_left hi, List.getD_eq_getElem _ _ hi]
  obtain ⟨b', h1, h2⟩ := getMessage_spec (p := p) s 257 0
    (store (write b (buf p, s ++ List.replicate (256 - s.length) 0)) p.msgCounter 4 0) hs
    (by rw [load_store]; rfl) (by omega) (by omega) hb
    (fun i hi => by
      rw [load_store_out (by omega), Nat.add_zero, hin i hi, List.getD_eq_getElem _ _ hi])
    (by
      by_cases h : s.length = 256
      · left; omega
      · right
        rw [load_store_out (by omega), Nat.add_zero]
        have hlt : s.length < (s ++ List.replicate (256 - s.length) 0).length := by simp; omega
        have hz : (s ++ List.replicate (256 - s.length) 0)[s.length]'hlt = 0 := by
          rw [List.getElem_append_right (by omega)]
          simp
        rw [load_write_in hlt (by rw [hz]; omega), hz])
  refine ⟨b', h1, fun x hx => ?_⟩
  rw [h2 x (by omega), store_out (by omega), write_out]
  simp only [List.length_append, List.length_replicate]
  omega

theorem buildLogMessage_spec {b : Bytes} {m : Nat} {s : List Nat} (hs : IsBytes s) (ha : At b m s)
    (hl : s.length ≤ 239) (hm : buf p + 256 ≤ m) (hsz : m + s.length < 2 ^ 32) :
    buildLogMessage p b m =
      some (store (write b (buf p, s ++ List.replicate (256 - s.length) 0)) p.msgCounter 4 0) := by
  unfold buildLogMessage
  rw [copyLoop_spec _ s _ m (buf p) b hs ha (by omega) (by omega) (by omega) hsz]
  simp only [Option.bind_some]
  rw [zeroLoop_spec _ (256 - s.length) _ _ _ (by omega) (by omega) (by omega), write_append]
  rfl

theorem buildBufferMessage_spec {b : Bytes} {m l : Nat} {s : List Nat} (hs : IsBytes s)
    (ha : At b (p.msgList + 240 * m) s) (hl : s.length ≤ 239) (hline : l < 1410065408)
    (hsz : p.msgList + 240 * m + 240 < 2 ^ 32) :
    s.length + 7 + (dec l).length ≤ 256 ∧
    buildBufferMessage p b m l =
      some (store (write b (buf p, (s ++ [0x20, 0x6C, 0x69, 0x6E, 0x65, 0x3A, 0x20] ++ dec l) ++
        List.replicate (256 - (s ++ [0x20, 0x6C, 0x69, 0x6E, 0x65, 0x3A, 0x20] ++ dec l).length) 0))
        p.msgCounter 4 0) := by
  obtain ⟨j, hj, hpow, hlt, hle⟩ := powLoop_spec l hline 9 0 (2 ^ 32) rfl (by norm_num) (Or.inl rfl)
  have hdec := dec_tops j l hlt hle
  have hdl : (dec l).length = j + 1 := by rw [hdec, List.length_map, tops_length]
  have hbuf : p.msgList = buf p + 256 := rfl
  refine ⟨by omega, ?_⟩
  unfold buildBufferMessage
  rw [Nat.mul_comm m 240, Nat.mod_eq_of_lt (a := 240 * m) (by omega),
    Nat.mod_eq_of_lt (a := p.msgList + 240 * m) (by omega),
    copyLoop_spec _ s _ _ (buf p) b hs ha (by omega) (by omega) (by omega) (by omega)]
  simp only [Option.bind_some]
  rw [show (1 : Nat) = 10 ^ 0 from rfl, hpow]
  simp only [Option.bind_some]
  rw [putChars_spec _ _ _ (by intro c hc; simp at hc; omega) (by simp; omega), write_append]
  rw [digitLoop_spec j _ l _ _ hlt (by omega) (by simp; omega), ← hdec]
  simp only [Option.bind_some]
  have e1 : buf p + s.length + [0x20, 0x6C, 0x69, 0x6E, 0x65, 0x3A, 0x20].length =
      buf p + (s ++ [0x20, 0x6C, 0x69, 0x6E, 0x65, 0x3A, 0x20]).length := by
    rw [List.length_append]; omega
  rw [e1, write_append]
  have e2 : buf p + (s ++ [0x20, 0x6C, 0x69, 0x6E, 0x65, 0x3A, 0x20]).length + (j + 1) =
      buf p + (s ++ [0x20, 0x6C, 0x69, 0x6E, 0x65, 0x3A, 0x20] ++ dec l).length := by
    simp only [List.length_append, hdl]; omega
  have e3 : (s ++ [0x20, 0x6C, 0x69, 0x6E, 0x65, 0x3A, 0x20] ++ dec l).length ≤ 256 := by
    simp [hdl]; omega
  rw [e2, zeroLoop_spec _ (256 - (s ++ [0x20, 0x6C, 0x69, 0x6E, 0x65, 0x3A, 0x20] ++ dec l).length) _ _ _
    (by omega) (by omega) (by omega), write_append]
  rfl

theorem dec_bytes (v : Nat) : (∀ c ∈ dec v, 48 ≤ c ∧ c ≤ 57) ∧ dec v ≠ [] := by
  unfold dec
  split
  · simp
  · rename_i h
    refine ⟨fun c hc => ?_, ?_⟩
    · simp only [List.mem_map, List.mem_reverse] at hc
      obtain ⟨d, hd, rfl⟩ := hc
      have := Nat.digits_lt_base (by norm_num : (1 : Nat) < 10) hd
      omega
    · simp [Nat.digits_ne_nil_iff_ne_zero, h]

/-! ## Plain texts -/

/-- A text of visible ASCII characters and blanks without quote, percent sign and backslash. -/
def Plain (s : List Nat) : Prop := ∀ c ∈ s, 32 ≤ c ∧ c ≤ 126 ∧ c ≠ 34 ∧ c ≠ 37 ∧ c ≠ 92

theorem Plain.bytes {s : List Nat} (h : Plain s) : IsBytes s := fun c hc => by
  have := h c hc
  omega

theorem cLit_plain : ∀ (s : List Nat), Plain s → cLit s = some s
  | [], _ => by simp [cLit]
  | c :: s, h => by
      have hc := h c (by simp)
      have ih := cLit_plain s fun x hx => h x (by simp [hx])
      have h92 : c ≠ 92 := hc.2.2.2.2
      rw [cLit]
      · rw [if_neg (by omega), ih]
        rfl
      · intro _ _ hq
        exact absurd hq h92

theorem printf_plain : ∀ (s : List Nat), Plain s → printf s = some s
  | [], _ => by simp [printf]
  | c :: s, h => by
      have hc := h c (by simp)
      have ih := printf_plain s fun x hx => h x (by simp [hx])
      have h37 : c ≠ 37 := hc.2.2.2.1
      rw [printf]
      · rw [if_neg h37, if_neg (by omega), ih]
        rfl
      · intro _ hq
        exact absurd hq h37

theorem wat_plain : ∀ (s : List Nat), Plain s → wat s = some s
  | [], _ => by simp [wat]
  | c :: s, h => by
      have hc := h c (by simp)
      have ih := wat_plain s fun x hx => h x (by simp [hx])
      have h92 : c ≠ 92 := hc.2.2.2.2
      rw [wat]
      · rw [if_neg (by omega), ih]
        rfl
      · intro _ _ hq
        exact absurd hq h92

theorem split_short (s : List Nat) (h : s.length ≤ 230) :
    split s.length s = some (if s = [] then [] else [s]) := by
  cases s with
  | nil => simp [split]
  | cons c s =>
    have hk : min 230 (c :: s).length = (c :: s).length := by omega
    rw [List.length_cons, split, if_neg (by simp)]
    simp only []
    rw [hk]
    have hb : boundary (c :: s) (c :: s).length = true := by simp [boundary]
    rw [if_pos hb]
    have hd : (c :: s).drop (c :: s).length = [] := by simp
    have ht : (c :: s).take (c :: s).length = c :: s := List.take_length
    rw [hd, ht]
    cases s <;> simp [split]

/-- Texts as the theorems want them. -/
def Good (as : List Arg) : Prop := ∀ s, .text s ∈ as → Plain s ∧ s.length ≤ 230

theorem buildCall_good : ∀ as, Good as → buildCall as = some (as.filter (· ≠ .text []))
  | [], _ => by simp [buildCall]
  | .value k :: as, h => by
      rw [buildCall, buildCall_good as fun s hs => h s (by simp [hs])]
      simp
  | .text s :: as, h => by
      have hs := h s (by simp)
      rw [buildCall, buildCall_good as fun s hs => h s (by simp [hs]), split_short s hs.2]
      by_cases h0 : s = []
      · subst h0
        simp
      · simp [h0]

theorem mapM_good : ∀ (prog : List (List Arg)), (∀ l ∈ prog, Good l) →
    prog.mapM buildCall = some (prog.map fun l => l.filter (· ≠ .text []))
  | [], _ => by simp
  | l :: ls, h => by
      rw [List.mapM_cons, buildCall_good l (h l (by simp)), mapM_good ls fun l hl => h l (by simp [hl])]
      rfl

theorem mapM_wat : ∀ (t : Table), (∀ s ∈ t, Plain s) → t.mapM wat = some t
  | [], _ => by simp
  | s :: t, h => by
      rw [List.mapM_cons, wat_plain s (h s (by simp)), mapM_wat t fun s hs => h s (by simp [hs])]
      rfl

/-! ## The table of strings -/

theorem intern_get (t : Table) (s : List Nat) :
    (intern t s).2[(intern t s).1]? = some s ∧ t <+: (intern t s).2 ∧
      ∀ x ∈ (intern t s).2, x ∈ t ∨ x = s := by
  unfold intern
  cases h : t.findIdx? (· = s) with
  | some i =>
    rw [List.findIdx?_eq_some_iff_getElem] at h
    obtain ⟨hi, he, _⟩ := h
    refine ⟨?_, List.prefix_refl _, fun x hx => Or.inl hx⟩
    rw [List.getElem?_eq_getElem hi]
    simpa using he
  | none =>
    refine ⟨by simp, List.prefix_append _ _, fun x hx => ?_⟩
    simpa using hx

/-- An item is what became of an argument. -/
inductive Becomes (t : Table) : Arg → Item → Prop where
  | value (k : Nat) : Becomes t (.value k) (.value k)
  | text (s : List Nat) (i : Nat) : t[i]? = some s → Becomes t (.text s) (.str i)

theorem Becomes.mono {t t' : Table} (h : t <+: t') {a : Arg} {i : Item} (hb : Becomes t a i) :
    Becomes t' a i := by
  cases hb with
  | value k => exact .value k
  | text s i hi =>
    refine .text s i ?_
    obtain ⟨r, rfl⟩ := h
    have hlt := (List.getElem?_eq_some_iff.1 hi).1
    rw [List.getElem?_append_left hlt, hi]

theorem forall₂_mono {t t' : Table} (h : t <+: t') {as : List Arg} {is : List Item}
    (hb : List.Forall₂ (Becomes t) as is) : List.Forall₂ (Becomes t') as is := by
  induction hb with
  | nil => exact .nil
  | cons h1 _ ih => exact .cons (h1.mono h) ih

theorem translate_spec : ∀ (as : List Arg) (t : Table),
    List.Forall₂ (Becomes (translate t as).2) as (translate t as).1 ∧ t <+: (translate t as).2 ∧
      ∀ x ∈ (translate t as).2, x ∈ t ∨ .text x ∈ as
  | [], t => by simp [translate]
  | .value k :: as, t => by
      obtain ⟨h1, h2, h3⟩ := translate_spec as t
      rw [translate]
      exact ⟨.cons (.value k) h1, h2, fun x hx => (h3 x hx).imp id (by simp)⟩
  | .text s :: as, t => by
      obtain ⟨h1, h2, h3⟩ := translate_spec as (intern t s).2
      obtain ⟨g1, g2, g3⟩ := intern_get t s
      rw [translate]
      refine ⟨.cons ?_ h1, g2.trans h2, fun x hx => ?_⟩
      · exact (Becomes.text s _ g1).mono h2
      · rcases h3 x hx with hx | hx
        · rcases g3 x hx with hx | rfl
          · exact Or.inl hx
          · exact Or.inr (by simp)
        · exact Or.inr (by simp [hx])

theorem translateAll_spec : ∀ (ls : List (List Arg)) (t : Table),
    List.Forall₂ (List.Forall₂ (Becomes (translateAll t ls).2)) ls (translateAll t ls).1 ∧
      t <+: (translateAll t ls).2 ∧
      ∀ x ∈ (translateAll t ls).2, x ∈ t ∨ ∃ l ∈ ls, .text x ∈ l
  | [], t => by simp [translateAll]
  | l :: ls, t => by
      obtain ⟨h1, h2, h3⟩ := translateAll_spec ls (translate t l).2
      obtain ⟨g1, g2, g3⟩ := translate_spec l t
      rw [translateAll]
      refine ⟨.cons (forall₂_mono h2 g1) h1, g2.trans h2, fun x hx => ?_⟩
      rcases h3 x hx with hx | ⟨l', hl, hx⟩
      · rcases g3 x hx with hx | hx
        · exact Or.inl hx
        · exact Or.inr ⟨l, by simp, hx⟩
      · exact Or.inr ⟨l', by simp [hl], hx⟩

/-! ## One line -/

/-- What stands for an argument in a line. -/
def shown (env : Env) : Arg → List Nat
  | .text s => s
  | .value k => dec (env k).1

theorem cItem_spec {t : Table} {env : Env} {a : Arg} {i : Item} (h : Becomes t a i)
    (hp : ∀ s, a = .text s → Plain s) : cItem t env i = some (shown env a) := by
  cases h with
  | value k => rfl
  | text s i hi =>
    have := hp s rfl
    simp [cItem, hi, cLit_plain s this, printf_plain s this, shown]

theorem cLog_spec {t : Table} {env : Env} {as : List Arg} {is : List Item}
    (h : List.Forall₂ (Becomes t) as is) (hp : ∀ s, .text s ∈ as → Plain s) :
    cLog t env is = some (List.intercalate [32] (as.map (shown env)) ++ [10]) := by
  induction h with
  | nil => rfl
  | @cons a i as is h1 h2 ih =>
    have ih := ih fun s hs => hp s (by simp [hs])
    have hi := cItem_spec (env := env) h1 fun s hs => hp s (by simp [hs])
    cases h2 with
    | nil => simp [cLog, hi]
    | @cons a' i' as' is' h1' h2' =>
      rw [cLog, hi, ih]
      · simp [List.intercalate]
      · simp

/-- The pieces `msgStr` is made of. -/
def glue (m : List Nat) : List (List Nat) → List Nat
  | [] => m
  | x :: xs => glue ((if m ≠ [] then m ++ [32] else m) ++ x) xs

theorem glue_ne : ∀ (xs : List (List Nat)) (m : List Nat), m ≠ [] →
    glue m xs = m ++ xs.flatMap fun x => 32 :: x
  | [], m, h => by simp [glue]
  | x :: xs, m, h => by
      rw [glue, if_pos h, glue_ne xs _ (by simp)]
      simp

theorem intercalate_cons (x : List Nat) : ∀ (xs : List (List Nat)),
    List.intercalate [32] (x :: xs) = x ++ xs.flatMap fun y => 32 :: y
  | [] => by simp
  | y :: xs => by
      have := intercalate_cons y xs
      rw [show List.intercalate [32] (x :: y :: xs) = x ++ [32] ++ List.intercalate [32] (y :: xs) by
        simp [List.intercalate], this]
      simp

theorem glue_nil (xs : List (List Nat)) (h : ∀ x ∈ xs, x ≠ []) : glue [] xs = List.intercalate [32] xs := by
  cases xs with
  | nil => rfl
  | cons x xs =>
    rw [glue, if_neg (by simp), List.nil_append, glue_ne xs x (h x (by simp)), intercalate_cons]

/-- The strings stand in memory. -/
def Loaded (p : Prod) (b : Bytes) : Prop := ∀ j s, p.strs[j]? = some s → At b (p.strList + 240 * j) s

/-- The strings are left as they are. -/
def Keeps (p : Prod) (f : Bytes → Bytes) : Prop :=
  ∀ b x, p.strList ≤ x → x < p.constStart → f b x = b x

/-- Strings as the theorems want them. -/
def Short (p : Prod) : Prop := p.constStart < 2 ^ 32 ∧ ∀ s ∈ p.strs, IsBytes s ∧ s.length ≤ 230

theorem place {j : Nat} {s : List Nat} (h : p.strs[j]? = some s) (hs : Short p) :
    s.length ≤ 230 ∧ p.strList + 240 * j + 240 ≤ p.constStart := by
  have hj := (List.getElem?_eq_some_iff.1 h).1
  refine ⟨(hs.2 s (List.mem_of_getElem? h)).2, ?_⟩
  have : p.constStart = p.strList + 240 * p.strs.length := rfl
  have : 240 * (j + 1) ≤ 240 * p.strs.length := Nat.mul_le_mul_left _ hj
  omega

theorem Loaded.congr {b b' : Bytes} (hs : Short p) (h : Loaded p b)
    (hb : ∀ x, p.strList ≤ x → x < p.constStart → b' x = b x) : Loaded p b' := by
  intro j s hj
  have := place hj hs
  refine (h j s hj).congr fun i hi => ?_
  rw [load_one, load_one, hb _ (by omega) (by omega)]

theorem buf_places (p : Prod) : p.msgCounter + 4 = buf p ∧ buf p + 256 = p.msgList ∧ p.msgList ≤ p.strList ∧
    p.strList ≤ p.constStart :=
  ⟨rfl, rfl, Nat.le_add_right _ _, Nat.le_add_right _ _⟩

theorem wItem_str {env : Env} {i : Nat} {t : List Nat} {s : Js} (hs : Short p) (hl : Loaded p s.mem)
    (hi : p.strs[i]? = some t) :
    ∃ b', Loaded p b' ∧ wItem p env s (.str i) =
      some (if t = [10] then ⟨b', [], s.out ++ s.msg ++ [10]⟩ else addPiece { s with mem := b' } t) := by
  obtain ⟨q1, q2, q3, q4⟩ := buf_places p
  have hsz := hs.1
  have hpl := place hi hs
  have hbytes := (hs.2 t (List.mem_of_getElem? hi)).1
  have ha := hl i t hi
  obtain ⟨b', hg, hb'⟩ := buffer_message (p := p) (b := s.mem) hbytes (by omega) (by omega)
  refine ⟨b', hl.congr hs (fun x h1 h2 => hb' x (by omega)), ?_⟩
  rw [wItem, Nat.mul_comm i 240, buildLogMessage_spec hbytes ha (by omega) (by omega) (by omega)]
  simp only [Option.bind_some]
  unfold writeBufferMessage
  rw [hg]
  rfl

theorem wItem_spec {env : Env} {a : Arg} {i : Item} {s : Js} (hs : Short p) (hl : Loaded p s.mem)
    (h : Becomes p.strs a i) (he : ∀ k, Keeps p (env k).2) (hne : a ≠ .text [10]) :
    ∃ s', wItem p env s i = some s' ∧ Loaded p s'.mem ∧ s'.out = s.out ∧
      s'.msg = (if s.msg ≠ [] then s.msg ++ [32] else s.msg) ++ shown env a := by
  cases h with
  | value k => exact ⟨_, rfl, hl.congr hs (fun x h1 h2 => he k _ x h1 h2), rfl, rfl⟩
  | text t i hi =>
    obtain ⟨b', h1, h2⟩ := wItem_str (env := env) hs hl hi
    have hne' : t ≠ [10] := by
      rintro rfl
      exact hne rfl
    rw [h2, if_neg hne']
    exact ⟨_, rfl, h1, rfl, rfl⟩

theorem wItems_spec {env : Env} (hs : Short p) (he : ∀ k, Keeps p (env k).2) {as : List Arg}
    {is : List Item} (h : List.Forall₂ (Becomes p.strs) as is) : ∀ (s : Js), Loaded p s.mem →
    (∀ a ∈ as, a ≠ .text [10]) →
    ∃ s', wItems p env s is = some s' ∧ Loaded p s'.mem ∧ s'.out = s.out ∧
      s'.msg = glue s.msg (as.map (shown env)) := by
  induction h with
  | nil => intro s hl _; exact ⟨s, rfl, hl, rfl, rfl⟩
  | @cons a i as is h1 h2 ih =>
    intro s hl hne
    obtain ⟨s1, g1, g2, g3, g4⟩ := wItem_spec hs hl h1 he (hne a (by simp))
    obtain ⟨s2, k1, k2, k3, k4⟩ := ih s1 g2 fun a ha => hne a (by simp [ha])
    refine ⟨s2, ?_, k2, by rw [k3, g3], ?_⟩
    · rw [wItems, g1]
      exact k1
    · rw [k4, g4]
      rfl

theorem wLog_end {env : Env} (hs : Short p) {is : List Item} (s s1 : Js)
    (hi : wItems p env s is = some s1) (hl : Loaded p s1.mem) :
    ∃ b', Loaded p b' ∧ wLog p env s is = some ⟨b', [], s1.out ++ s1.msg ++ [10]⟩ := by
  obtain ⟨q1, q2, q3, q4⟩ := buf_places p
  have hsz := hs.1
  obtain ⟨b', hg, hb'⟩ := getMessage_spec (p := p) [10] 257 0
    (store (store s1.mem (buf p) 4 0x0a) p.msgCounter 4 0) (by intro c hc; simp at hc; omega)
    (by rw [load_store]; rfl) (by simp) (by simp) (by omega)
    (fun i hi => by
      obtain rfl : i = 0 := by simpa using hi
      rw [load_store_out (by omega), load_one, store_in (by omega) (by omega)]
      simp)
    (Or.inr (by
      rw [load_store_out (by simp; omega), load_one, store_in (by simp) (by simp)]
      simp))
  refine ⟨b', hl.congr hs fun x h1 h2 => ?_, ?_⟩
  · rw [hb' x (by omega), store_out (by omega), store_out (by omega)]
  · rw [wLog, hi]
    simp only [Option.bind_some]
    unfold writeBufferMessage
    rw [hg]
    rfl

theorem wLog_spec {env : Env} (hs : Short p) (he : ∀ k, Keeps p (env k).2) {as : List Arg}
    {is : List Item} (h : List.Forall₂ (Becomes p.strs) as is) (s : Js) (hl : Loaded p s.mem)
    (hm : s.msg = []) (hne : ∀ a ∈ as, a ≠ .text []) (hnl : ∀ a ∈ as, a ≠ .text [10]) :
    ∃ s', wLog p env s is = some s' ∧ Loaded p s'.mem ∧ s'.msg = [] ∧
      s'.out = s.out ++ (List.intercalate [32] (as.map (shown env)) ++ [10]) := by
  obtain ⟨s1, g1, g2, g3, g4⟩ := wItems_spec hs he h s hl hnl
  obtain ⟨b', k1, k2⟩ := wLog_end hs s s1 g1 g2
  refine ⟨_, k2, k1, rfl, ?_⟩
  show s1.out ++ s1.msg ++ [10] = _
  rw [g3, g4, hm, glue_nil, List.append_assoc]
  intro x hx
  obtain ⟨a, ha, rfl⟩ := List.mem_map.1 hx
  cases a with
  | text t => intro hq; exact hne _ ha (by rw [show t = [] from hq])
  | value k => exact (dec_bytes _).2

/-- What a terminal gets of ASCII. -/
theorem utf8_ascii (l : List Nat) (h : ∀ c ∈ l, c < 128) : l.flatMap utf8 = l := by
  induction l with
  | nil => rfl
  | cons c l ih =>
    rw [List.flatMap_cons, ih fun x hx => h x (by simp [hx])]
    simp [utf8, h c (by simp)]

end Verif.Log
