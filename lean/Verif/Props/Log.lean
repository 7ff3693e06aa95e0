import Verif.LogLemmas
import Verif.Props.WMem

/-!
# C92: what `log` prints and what error messages say

The theorems speak of the arguments of `log` as they are written, of the bytes the C++ program prints,
of the bytes a terminal gets from the JavaScript program, and of the text `getMessage` reads after an
assertion failed.
-/

namespace Verif.Props.Log

open Verif.Log Verif.WMem Verif.Props.WMem

set_option linter.unusedVariables false

/-- The bytes of a text of ASCII characters. -/
def ascii (s : String) : List Nat := s.toList.map Char.toNat

/-- What an argument stands for: its own characters, or the digits of the value. -/
def piece (val : Nat → Nat) : Arg → List Nat
  | .text s => s
  | .value k => ascii (Nat.repr (val k))

/-- The line a `log` statement ought to print: the pieces with single blanks between them; empty texts
count for nothing. -/
def line (val : Nat → Nat) (as : List Arg) : List Nat :=
  List.intercalate [32] ((as.map (piece val)).filter (· ≠ [])) ++ [10]

/-- Characters that are printed as they are: visible ASCII and the blank, without `"`, `%` and `\`. -/
def Visible (s : List Nat) : Prop := ∀ c ∈ s, 32 ≤ c ∧ c ≤ 126 ∧ c ≠ 34 ∧ c ≠ 37 ∧ c ≠ 92

/-- What evaluating the logged expressions does to memory leaves the strings alone. -/
def Leaves (p : WMem.Prod) (env : Env) : Prop :=
  ∀ k b x, p.strList ≤ x → x < p.constStart → (env k).2 b x = b x

theorem digits_dec : ∀ v, 0 < v → (Nat.toDigits 10 v).map Char.toNat = (Nat.digits 10 v).reverse.map (48 + ·) := by
  intro v
  induction v using Nat.strong_induction_on with
  | _ v ih =>
    intro h0
    have hc : ∀ d, d < 10 → d.digitChar.toNat = 48 + d := by
      intro d hd
      interval_cases d <;> rfl
    rw [Nat.toDigits_eq_if (by norm_num), Nat.digits_def' (by norm_num) h0]
    by_cases h : v < 10
    · rw [if_pos h, Nat.div_eq_of_lt h, Nat.mod_eq_of_lt h]
      simp [hc v h]
    · rw [if_neg h, List.map_append, ih (v / 10) (by omega) (by omega)]
      simp [hc (v % 10) (by omega)]

theorem repr_dec (v : Nat) : ascii (Nat.repr v) = dec v := by
  unfold ascii
  rw [Nat.toList_repr]
  by_cases h0 : v = 0
  · subst h0
    rfl
  · rw [dec, if_neg h0, digits_dec v (by omega)]

theorem shown_piece (env : Env) (a : Arg) : shown env a = piece (fun k => (env k).1) a := by
  cases a with
  | text s => rfl
  | value k => exact (repr_dec _).symm

theorem piece_nil (val : Nat → Nat) (a : Arg) : piece val a = [] ↔ a = .text [] := by
  cases a with
  | text s => simp [piece]
  | value k =>
    simp only [piece, repr_dec, reduceCtorEq, iff_false]
    exact (dec_bytes _).2

theorem line_shown (env : Env) (as : List Arg) :
    List.intercalate [32] ((as.filter (· ≠ .text [])).map (shown env)) ++ [10] = line (fun k => (env k).1) as := by
  unfold line
  congr 2
  induction as with
  | nil => rfl
  | cons a as ih =>
    by_cases h : a = .text []
    · subst h
      simpa [piece] using ih
    · have h' : piece (fun k => (env k).1) a ≠ [] := fun hq => h ((piece_nil _ _).1 hq)
      rw [List.filter_cons_of_pos (by simpa using h), List.map_cons, List.map_cons,
        List.filter_cons_of_pos (by simpa using h'), ih, shown_piece]

section
variable {p : WMem.Prod} {fr : List (Nat × List Nat)} (hs : Setup p fr) {b : Bytes} (hb : initial p fr = some b)
include hs hb

theorem top_small : p.constStart < 2 ^ 32 ∧ p.strList ≤ p.constStart := by
  obtain ⟨b1, b2, b3, b4, b5, b6, b7, b8, b9, b10, b11, b12, b13, b14, b15, b16⟩ := layout p
  have := top_lt hs hb
  omega

theorem short (h : ∀ s ∈ p.strs, IsBytes s ∧ s.length ≤ 230) : Short p := ⟨(top_small hs hb).1, h⟩

theorem at_of {a : Nat} {s : List Nat} (hl : s.length ≤ 239) (h : IsBytes s) {c : Bytes}
    (hc : ∀ i, i ≤ s.length → c (a + i) = (s ++ [0]).getD i 0) : At c a s := by
  constructor
  · intro i hi
    have h1 := (h s[i] (List.getElem_mem hi)).2
    rw [load_one, hc i (by omega), List.getD_append _ _ _ _ hi, List.getD_eq_getElem _ _ hi, Nat.mod_eq_of_lt h1]
  · rw [load_one, hc _ le_rfl, List.getD_append_right _ _ _ _ le_rfl]
    simp

theorem loaded (h : ∀ s ∈ p.strs, IsBytes s ∧ s.length ≤ 230) : Loaded p b := by
  intro j s hj
  obtain ⟨d, hd, hr, hz⟩ := parts hs hb
  have h1 := h s (List.mem_of_getElem? hj)
  have hm : msgBytes s = s ++ [0] := by rw [msgBytes, if_pos (by omega)]
  refine at_of hs hb (by omega) h1.1 fun i hi => ?_
  rw [read_str hd hr hj (by rw [hm]; simp; omega), hm]

end

theorem visible_plain {s : List Nat} (h : Visible s) : Plain s := h

theorem shown_lt {env : Env} {a : Arg} (h : ∀ s, a = .text s → Plain s) : ∀ c ∈ shown env a, c < 128 := by
  intro c hc
  cases a with
  | text s => have := h s rfl c hc; omega
  | value k => have := (dec_bytes _).1 c hc; omega

theorem line_lt {env : Env} {as : List Arg} (h : ∀ s, .text s ∈ as → Plain s) :
    ∀ c ∈ List.intercalate [32] (as.map (shown env)) ++ [10], c < 128 := by
  induction as with
  | nil => simp
  | cons a as ih =>
    intro c hc
    have ih := ih fun s hs => h s (by simp [hs])
    rw [List.map_cons, intercalate_cons] at hc
    simp only [List.append_assoc, List.mem_append, List.mem_flatMap, List.mem_map, List.mem_cons, List.not_mem_nil,
      or_false] at hc
    rcases hc with hc | ⟨x, ⟨y, hy, rfl⟩, rfl | hc⟩ | rfl
    · exact shown_lt (fun s hs => h s (by simp [hs])) c hc
    · omega
    · exact shown_lt (fun s hs => h s (by simp [← hs, hy])) c hc
    · omega

theorem cRun_good {t : Table} {prog : List (List Arg)} {ls : List (List Item)}
    (h : List.Forall₂ (List.Forall₂ (Becomes t)) (prog.map fun l => l.filter (· ≠ .text [])) ls)
    (hg : ∀ l ∈ prog, Good l) : ∀ (rs : List (Nat × Env)), (∀ r ∈ rs, r.1 < prog.length) →
    cRun t ls rs = some (rs.flatMap fun r => line (fun k => (r.2 k).1) (prog.getD r.1 []))
  | [], _ => rfl
  | (i, env) :: rs, hr => by
      have hi : i < prog.length := hr (i, env) (by simp)
      have hlen := h.length_eq
      rw [List.length_map] at hlen
      have hf := List.Forall₂.get h (i := i) (by simpa using hi) (by omega)
      simp only [List.get_eq_getElem, List.getElem_map] at hf
      have hc := cLog_spec (env := env) hf fun s hs' => (hg _ (List.getElem_mem hi) s (List.mem_filter.1 hs').1).1
      rw [line_shown] at hc
      rw [cRun, List.getElem?_eq_getElem (by omega : i < ls.length)]
      simp only [Option.bind_some]
      rw [hc, cRun_good h hg rs fun r hr' => hr r (by simp [hr'])]
      simp [List.getElem?_eq_getElem hi]

theorem wRun_good {p : WMem.Prod} (hp : Short p) {prog : List (List Arg)} {ls : List (List Item)}
    (h : List.Forall₂ (List.Forall₂ (Becomes p.strs)) (prog.map fun l => l.filter (· ≠ .text [])) ls)
    (hg : ∀ l ∈ prog, Good l) : ∀ (rs : List (Nat × Env)) (s : Js),
    (∀ r ∈ rs, r.1 < prog.length ∧ Leaves p r.2) → Loaded p s.mem → s.msg = [] →
    ∃ s', wRun p ls s rs = some s' ∧ s'.msg = [] ∧ ∃ o, s'.out = s.out ++ o ∧
      o.flatMap utf8 = rs.flatMap fun r => line (fun k => (r.2 k).1) (prog.getD r.1 [])
  | [], s, _, _, hm => ⟨s, rfl, hm, [], by simp, rfl⟩
  | (i, env) :: rs, s, hr, hl, hm => by
      have hi : i < prog.length := (hr (i, env) (by simp)).1
      have hlen := h.length_eq
      rw [List.length_map] at hlen
      have hf := List.Forall₂.get h (i := i) (by simpa using hi) (by omega)
      simp only [List.get_eq_getElem, List.getElem_map] at hf
      have hpl : ∀ s, .text s ∈ (prog[i].filter (· ≠ .text [])) → Plain s := fun s hs' =>
        (hg _ (List.getElem_mem hi) s (List.mem_filter.1 hs').1).1
      obtain ⟨s1, g1, g2, g3, g4⟩ := wLog_spec (env := env) hp (fun k b x h1 h2 => (hr (i, env) (by simp)).2 k b x h1 h2)
        hf s hl hm (fun a ha => by simpa using (List.mem_filter.1 ha).2) (fun a ha hq => by
          subst hq
          have := hpl _ ha 10 (by simp)
          omega)
      obtain ⟨s2, k1, k2, o, k3, k4⟩ := wRun_good hp h hg rs s1 (fun r hr' => hr r (by simp [hr'])) g2 g3
      refine ⟨s2, ?_, k2, (List.intercalate [32] ((prog[i].filter (· ≠ .text [])).map (shown env)) ++ [10]) ++ o, ?_, ?_⟩
      · rw [wRun, List.getElem?_eq_getElem (by omega : i < ls.length)]
        simp only [Option.bind_some]
        rw [g1]
        exact k1
      · rw [k3, g4, List.append_assoc]
      · rw [List.flatMap_append, k4, utf8_ascii _ (line_lt hpl), line_shown, List.flatMap_cons]
        simp [List.getElem?_eq_getElem hi]

/-- **C92.**  A program whose `log` statements have visible ASCII texts of at most 230 bytes compiles, its
strings need no escapes in the module, and in every run, whatever the values, the C++ program and the
JavaScript program print the same bytes: for each statement executed the arguments with a blank between
them and a newline, and nothing is left in the JavaScript program.

The full statement is without the conditions on the texts; it is false, see below. -/
theorem C92_log_partial (prog : List (List Arg))
    (hv : ∀ l ∈ prog, ∀ s, .text s ∈ l → Visible s ∧ s.length ≤ 230) :
    ∃ ls t, compile prog = some (ls, t) ∧ t.mapM wat = some t ∧
      ∀ (p : WMem.Prod) (fr : List (Nat × List Nat)) (b0 : Bytes), Setup p fr → initial p fr = some b0 → p.strs = t →
      ∀ (b : Bytes), (∀ x, p.strList ≤ x → x < p.constStart → b x = b0 x) →
      ∀ (rs : List (Nat × Env)), (∀ r ∈ rs, r.1 < prog.length ∧ Leaves p r.2) →
        cRun t ls rs = some (rs.flatMap fun r => line (fun k => (r.2 k).1) (prog.getD r.1 [])) ∧
        ∃ s, wRun p ls ⟨b, [], []⟩ rs = some s ∧ s.msg = [] ∧
          s.out.flatMap utf8 = rs.flatMap fun r => line (fun k => (r.2 k).1) (prog.getD r.1 []) := by
  have hg : ∀ l ∈ prog, Good l := hv
  obtain ⟨h1, h2, h3⟩ := translateAll_spec (prog.map fun l => l.filter (· ≠ .text [])) []
  have hplain : ∀ s ∈ (translateAll [] (prog.map fun l => l.filter (· ≠ .text []))).2, Plain s ∧ s.length ≤ 230 := by
    intro s hs'
    rcases h3 s hs' with h | ⟨l, hl, h⟩
    · simp at h
    · obtain ⟨l', hl', rfl⟩ := List.mem_map.1 hl
      exact hg l' hl' s (List.mem_filter.1 h).1
  refine ⟨_, _, by rw [compile, mapM_good prog hg]; rfl, mapM_wat _ fun s hs' => (hplain s hs').1, ?_⟩
  intro p fr b0 hs hb ht b hbb rs hr
  have hstr : ∀ s ∈ p.strs, IsBytes s ∧ s.length ≤ 230 := fun s hs' =>
    ⟨(hplain s (ht ▸ hs')).1.bytes, (hplain s (ht ▸ hs')).2⟩
  have hp := short hs hb hstr
  refine ⟨cRun_good h1 hg rs fun r hr' => (hr r hr').1, ?_⟩
  obtain ⟨s, g1, g2, o, g3, g4⟩ := wRun_good hp (ht ▸ h1) hg rs ⟨b, [], []⟩ hr ((loaded hs hb hstr).congr hp hbb) rfl
  exact ⟨s, g1, g2, by rw [g3, List.nil_append, g4]⟩

/-- **C92.**  After `buildBufferMessage` with a message and a line, `getMessage` reads the message, cut to
239 bytes, then " line: " and the line in decimal; nothing outside of the buffer has changed.  (Lines
below 1410065408: beyond, the multiplication by ten wraps round.) -/
theorem C92_error {p : WMem.Prod} {fr : List (Nat × List Nat)} (hs : Setup p fr) {b0 : Bytes}
    (hb : initial p fr = some b0) {b : Bytes} (hbb : ∀ x, p.msgList ≤ x → x < p.strList → b x = b0 x)
    {m l : Nat} {s : List Nat} (hm : p.msgs[m]? = some s) (hbytes : ∀ c ∈ s, 0 < c ∧ c < 256)
    (hl : l < 1410065408) :
    ∃ b', buildBufferMessage p b m l = some b' ∧
      ∃ b'', getMessage p 257 b' = some (s.take 239 ++ ascii " line: " ++ ascii (Nat.repr l), b'') ∧
        ∀ x, x < p.msgCounter ∨ p.msgList ≤ x → b'' x = b x := by
  obtain ⟨d, hd, hr, hz⟩ := parts hs hb
  obtain ⟨t1, t2⟩ := top_small hs hb
  have hj := (List.getElem?_eq_some_iff.1 hm).1
  have hsl : p.strList = p.msgList + 240 * p.msgs.length := rfl
  have hml : 240 * (m + 1) ≤ 240 * p.msgs.length := Nat.mul_le_mul_left _ hj
  have hbuf : p.msgList = buf p + 256 := rfl
  have hbytes' : IsBytes (s.take 239) := fun c hc => hbytes c (List.mem_of_mem_take hc)
  have hmb : msgBytes s = s.take 239 ++ [0] := by
    unfold msgBytes
    split
    · rw [List.take_of_length_le (by omega)]
    · rfl
  have hlen : (s.take 239).length ≤ 239 := by simp
  have ha : At b (p.msgList + 240 * m) (s.take 239) := by
    refine at_of hs hb hlen hbytes' fun i hi => ?_
    rw [hbb _ (by omega) (by omega), read_msg hd hr hm (by rw [hmb, List.length_append, List.length_singleton]; omega), hmb]
  obtain ⟨e1, e2⟩ := buildBufferMessage_spec (p := p) hbytes' ha hlen hl (by omega)
  refine ⟨_, e2, ?_⟩
  have hd := dec_bytes l
  obtain ⟨b'', g1, g2⟩ := buffer_message (p := p) (b := b)
    (s := s.take 239 ++ [0x20, 0x6C, 0x69, 0x6E, 0x65, 0x3A, 0x20] ++ dec l)
    (by
      intro c hc
      rcases List.mem_append.1 hc with hc | hc
      · rcases List.mem_append.1 hc with hc | hc
        · exact hbytes' c hc
        · simp at hc; omega
      · have := hd.1 c hc; omega)
    (by rw [List.length_append, List.length_append]; simp only [List.length_cons, List.length_nil]; omega) (by omega)
  refine ⟨b'', ?_, fun x hx => g2 x (by omega)⟩
  rw [g1, repr_dec]
  rfl

/-! ### What goes wrong with other texts -/

/-- The strings of a module, its first memory and a run of its only `log` statement. -/
theorem one {p : WMem.Prod} {fr : List (Nat × List Nat)} (hs : Setup p fr) {b : Bytes} (hb : initial p fr = some b)
    (h : ∀ s ∈ p.strs, IsBytes s ∧ s.length ≤ 230) : Short p ∧ Loaded p b :=
  ⟨short hs hb h, loaded hs hb h⟩

/-- **C92, the code is at fault.**  `log("a", "\n")`: the C++ program prints `a`, a blank and two newlines;
in the JavaScript program the text that is only a newline ends the line, without the blank. -/
theorem C92_newline_violated {p : WMem.Prod} {fr : List (Nat × List Nat)} (hs : Setup p fr) {b : Bytes}
    (hb : initial p fr = some b) (env : Env) :
    ∃ ls t, compile [[.text (ascii "a"), .text (ascii "\\n")]] = some (ls, t) ∧
      cRun t ls [(0, env)] = some (ascii "a \n\n") ∧
      (t.mapM wat = some p.strs →
        ∃ s, wRun p ls ⟨b, [], []⟩ [(0, env)] = some s ∧ s.out.flatMap utf8 = ascii "a\n\n") := by
  refine ⟨[[.str 0, .str 1]], [ascii "a", ascii "\\n"], by decide +kernel, by rfl, fun ht => ?_⟩
  have ht : p.strs = [[97], [10]] := by
    have : [ascii "a", ascii "\\n"].mapM wat = some [[97], [10]] := by decide +kernel
    rw [this] at ht
    exact (Option.some.inj ht).symm
  obtain ⟨h1, h2⟩ := one hs hb (by rw [ht]; simp [IsBytes])
  obtain ⟨b1, l1, e1⟩ := wItem_str (env := env) (i := 0) (t := [97]) (s := ⟨b, [], []⟩) h1 h2 (by rw [ht]; rfl)
  obtain ⟨b2, l2, e2⟩ := wItem_str (env := env) (i := 1) (t := [10]) (s := ⟨b1, [97], []⟩) h1 l1 (by rw [ht]; rfl)
  have e : wItems p env ⟨b, [], []⟩ [.str 0, .str 1] = some ⟨b2, [], [97, 10]⟩ := by
    rw [wItems, e1]
    show wItems p env ⟨b1, [97], []⟩ [.str 1] = _
    rw [wItems, e2]
    rfl
  obtain ⟨b3, l3, e3⟩ := wLog_end h1 _ _ e l2
  refine ⟨⟨b3, [], [97, 10, 10]⟩, ?_, by rfl⟩
  rw [wRun]
  show (wLog p env ⟨b, [], []⟩ [.str 0, .str 1]).bind _ = _
  rw [e3]
  rfl

/-- **C92, the code is at fault.**  `log("100%")`: the text is the format of `printf` in the C++ program,
where a percent sign without a conversion is undefined; the JavaScript program prints `100%`. -/
theorem C92_percent_violated {p : WMem.Prod} {fr : List (Nat × List Nat)} (hs : Setup p fr) {b : Bytes}
    (hb : initial p fr = some b) (env : Env) :
    ∃ ls t, compile [[.text (ascii "100%")]] = some (ls, t) ∧ cRun t ls [(0, env)] = none ∧
      (t.mapM wat = some p.strs →
        ∃ s, wRun p ls ⟨b, [], []⟩ [(0, env)] = some s ∧ s.out.flatMap utf8 = ascii "100%\n") := by
  refine ⟨[[.str 0]], [ascii "100%"], by decide +kernel, by rfl, fun ht => ?_⟩
  have ht : p.strs = [[49, 48, 48, 37]] := by
    have : [ascii "100%"].mapM wat = some [[49, 48, 48, 37]] := by decide +kernel
    rw [this] at ht
    exact (Option.some.inj ht).symm
  obtain ⟨h1, h2⟩ := one hs hb (by rw [ht]; simp [IsBytes])
  obtain ⟨b1, l1, e1⟩ := wItem_str (env := env) (i := 0) (t := [49, 48, 48, 37]) (s := ⟨b, [], []⟩) h1 h2
    (by rw [ht]; rfl)
  have e : wItems p env ⟨b, [], []⟩ [.str 0] = some ⟨b1, [49, 48, 48, 37], []⟩ := by
    rw [wItems, e1]
    rfl
  obtain ⟨b3, l3, e3⟩ := wLog_end h1 _ _ e l1
  refine ⟨⟨b3, [], [49, 48, 48, 37, 10]⟩, ?_, by rfl⟩
  rw [wRun]
  show (wLog p env ⟨b, [], []⟩ [.str 0]).bind _ = _
  rw [e3]
  rfl

/-- **C92, the code is at fault.**  `log("é")` (bytes 195, 169): the C++ program prints these bytes; the
JavaScript program takes every byte for a character of its own and prints four bytes, `Ã©`. -/
theorem C92_utf8_violated {p : WMem.Prod} {fr : List (Nat × List Nat)} (hs : Setup p fr) {b : Bytes}
    (hb : initial p fr = some b) (env : Env) :
    ∃ ls t, compile [[.text [195, 169]]] = some (ls, t) ∧ cRun t ls [(0, env)] = some [195, 169, 10] ∧
      (t.mapM wat = some p.strs →
        ∃ s, wRun p ls ⟨b, [], []⟩ [(0, env)] = some s ∧ s.out.flatMap utf8 = [195, 131, 194, 169, 10]) := by
  refine ⟨[[.str 0]], [[195, 169]], by decide +kernel, by rfl, fun ht => ?_⟩
  have ht : p.strs = [[195, 169]] := by
    have : [[195, 169]].mapM wat = some [[195, 169]] := by decide +kernel
    rw [this] at ht
    exact (Option.some.inj ht).symm
  obtain ⟨h1, h2⟩ := one hs hb (by rw [ht]; simp [IsBytes])
  obtain ⟨b1, l1, e1⟩ := wItem_str (env := env) (i := 0) (t := [195, 169]) (s := ⟨b, [], []⟩) h1 h2
    (by rw [ht]; rfl)
  have e : wItems p env ⟨b, [], []⟩ [.str 0] = some ⟨b1, [195, 169], []⟩ := by
    rw [wItems, e1]
    rfl
  obtain ⟨b3, l3, e3⟩ := wLog_end h1 _ _ e l1
  refine ⟨⟨b3, [], [195, 169, 10]⟩, ?_, by rfl⟩
  rw [wRun]
  show (wLog p env ⟨b, [], []⟩ [.str 0]).bind _ = _
  rw [e3]
  rfl

/-- **C92, the code is at fault.**  A visible text of more than 230 and at most 460 bytes is printed with a
blank after its first 230 bytes. -/
theorem C92_split_violated {s : List Nat} (hv : Visible s) (h1 : 230 < s.length) (h2 : s.length ≤ 460) :
    ∃ ls t, compile [[.text s]] = some (ls, t) ∧
      ∀ env, cRun t ls [(0, env)] = some (s.take 230 ++ [32] ++ s.drop 230 ++ [10]) := by
  have hdv : Plain (s.drop 230) := fun c hc => hv c (List.mem_of_mem_drop hc)
  have htv : Plain (s.take 230) := fun c hc => hv c (List.mem_of_mem_take hc)
  have hd : s.drop 230 ≠ [] := by
    intro hq
    have := congrArg List.length hq
    simp at this
    omega
  have hsplit : split s.length s = some [s.take 230, s.drop 230] := by
    obtain ⟨n, hn⟩ : ∃ n, s.length = n + 1 := ⟨s.length - 1, by omega⟩
    rw [hn, split, if_neg (by rintro rfl; simp at h1)]
    have hk : min 230 s.length = 230 := by omega
    simp only [hk]
    have hbd : boundary s 230 = true := by
      unfold boundary
      rw [List.getElem?_eq_getElem (by omega)]
      have := hv s[230] (List.getElem_mem _)
      simp
      omega
    rw [if_pos hbd]
    have hfuel : ∀ (u : List Nat) (m : Nat), u ≠ [] → u.length ≤ 230 → 2 ≤ m → split m u = some [u] := by
      intro u m hu hul hm
      obtain ⟨m, rfl⟩ : ∃ k, m = k + 2 := ⟨m - 2, by omega⟩
      rw [split, if_neg hu]
      have hk : min 230 u.length = u.length := by omega
      simp only [hk]
      rw [if_pos (by simp [boundary]), List.drop_length, List.take_length]
      simp [split]
    rw [hfuel _ n hd (by simp; omega) (by omega)]
    rfl
  have hb : buildCall [.text s] = some [.text (s.take 230), .text (s.drop 230)] := by
    rw [buildCall, hsplit]
    rfl
  obtain ⟨g1, g2, g3⟩ := translateAll_spec [[.text (s.take 230), .text (s.drop 230)]] []
  refine ⟨(translateAll [] [[.text (s.take 230), .text (s.drop 230)]]).1,
    (translateAll [] [[.text (s.take 230), .text (s.drop 230)]]).2, by rw [compile, List.mapM_cons, hb]; rfl, fun env => ?_⟩
  obtain ⟨l, hl⟩ : ∃ l, (translateAll [] [[.text (s.take 230), .text (s.drop 230)]]).1 = [l] := ⟨_, rfl⟩
  rw [hl] at g1 ⊢
  have hf : List.Forall₂ (Becomes (translateAll [] [[.text (s.take 230), .text (s.drop 230)]]).2)
      [.text (s.take 230), .text (s.drop 230)] l := by
    cases g1 with
    | cons h _ => exact h
  have hc := cLog_spec (env := env) hf (by
    intro x hx
    simp only [List.mem_cons, Arg.text.injEq, List.not_mem_nil, or_false] at hx
    rcases hx with rfl | rfl
    · exact htv
    · exact hdv)
  rw [cRun]
  show (cLog _ env l).bind _ = _
  rw [hc]
  simp [cRun, List.intercalate, shown]

/-- **C92, the code is at fault.**  If the byte at position 230 of a text continues a character, the parser
panics. -/
theorem C92_boundary_violated {s : List Nat} {c : Nat} (h : s[230]? = some c) (hc : 128 ≤ c ∧ c < 192)
    (pre post : List Arg) (before after : List (List Arg)) :
    compile (before ++ (pre ++ .text s :: post) :: after) = none := by
  have hlt := (List.getElem?_eq_some_iff.1 h).1
  have hsplit : split s.length s = none := by
    obtain ⟨n, hn⟩ : ∃ n, s.length = n + 1 := ⟨s.length - 1, by omega⟩
    rw [hn, split, if_neg (by rintro rfl; simp at hlt)]
    have hk : min 230 s.length = 230 := by omega
    simp only [hk]
    rw [if_neg]
    simp [boundary, h, hc]
  have hcall : ∀ pre : List Arg, buildCall (pre ++ .text s :: post) = none := by
    intro pre
    induction pre with
    | nil =>
      rw [List.nil_append, buildCall, hsplit]
    | cons a pre ih =>
      cases a with
      | value k => rw [List.cons_append, buildCall, ih]; rfl
      | text x =>
        rw [List.cons_append, buildCall, ih]
        cases split x.length x <;> rfl
  have hm : ∀ before : List (List Arg), (before ++ (pre ++ .text s :: post) :: after).mapM buildCall = none := by
    intro before
    induction before with
    | nil => rw [List.nil_append, List.mapM_cons, hcall]; rfl
    | cons l before ih =>
      rw [List.cons_append, List.mapM_cons, ih]
      cases buildCall l <;> rfl
  rw [compile, hm]
  rfl

/-! ### Cases -/

/-- `log("x is", x); log("ok"); log("", "ok", y, "x is")`. -/
def exProg : List (List Arg) :=
  [[.text (ascii "x is"), .value 0], [.text (ascii "ok")],
    [.text [], .text (ascii "ok"), .value 1, .text (ascii "x is")]]

/-- Its strings, the second used twice. -/
example : compile exProg = some ([[.str 0, .value 0], [.str 1], [.str 1, .value 1, .str 0]],
    [ascii "x is", ascii "ok"]) := by decide +kernel

/-- A module with these strings. -/
def exQ : WMem.Prod := { exP with strs := [ascii "x is", ascii "ok"] }

theorem exQ_setup : Setup exQ exFr where
  odd := by decide +kernel
  big := by decide +kernel
  len := by decide +kernel
  words := by decide +kernel
  scratch := by decide +kernel
  data := by decide +kernel
  table := ⟨8, by decide, by decide⟩
  starts := by decide
  hashes := by decide +kernel
  zero := by decide +kernel
  ascii := by decide
  place := by decide
  room := by decide
  wit := by decide

/-- Values of a run. -/
def exEnv (x y : Nat) : Env := fun k => (if k = 0 then x else y, id)

/-- The theorem on a run: the third statement, then the first. -/
example : ∃ b, initial exQ exFr = some b ∧
    cRun [ascii "x is", ascii "ok"] [[.str 0, .value 0], [.str 1], [.str 1, .value 1, .str 0]]
      [(2, exEnv 5 120), (0, exEnv 0 1)] = some (ascii "ok 120 x is\nx is 0\n") ∧
    ∃ s, wRun exQ [[.str 0, .value 0], [.str 1], [.str 1, .value 1, .str 0]] ⟨b, [], []⟩
      [(2, exEnv 5 120), (0, exEnv 0 1)] = some s ∧ s.out.flatMap utf8 = ascii "ok 120 x is\nx is 0\n" := by
  obtain ⟨b, hb⟩ := Option.isSome_iff_exists.1 (show (initial exQ exFr).isSome = true by decide +kernel)
  refine ⟨b, hb, ?_⟩
  obtain ⟨ls, t, h1, h2, h3⟩ := C92_log_partial exProg (by
    have h : ∀ l ∈ exProg, ∀ a ∈ l, (match a with
        | .text s => decide ((∀ c ∈ s, 32 ≤ c ∧ c ≤ 126 ∧ c ≠ 34 ∧ c ≠ 37 ∧ c ≠ 92) ∧ s.length ≤ 230)
        | .value _ => true) = true := by decide +kernel
    intro l hl s hs'
    simpa [Visible] using h l hl _ hs')
  have he : compile exProg = some ([[.str 0, .value 0], [.str 1], [.str 1, .value 1, .str 0]],
    [ascii "x is", ascii "ok"]) := by decide +kernel
  rw [he] at h1
  obtain ⟨rfl, rfl⟩ := Prod.mk.inj (Option.some.inj h1)
  obtain ⟨g1, s, g2, g3, g4⟩ := h3 exQ exFr b exQ_setup hb rfl b (fun _ _ _ => rfl)
    [(2, exEnv 5 120), (0, exEnv 0 1)] (by
      intro r hr
      simp only [List.mem_cons, List.not_mem_nil, or_false] at hr
      rcases hr with rfl | rfl
      · exact ⟨by decide, fun _ _ _ _ _ => rfl⟩
      · exact ⟨by decide, fun _ _ _ _ _ => rfl⟩)
  have hl : ([(2, exEnv 5 120), (0, exEnv 0 1)].flatMap fun r => line (fun k => (r.2 k).1) (exProg.getD r.1 [])) =
      ascii "ok 120 x is\nx is 0\n" := by decide +kernel
  rw [hl] at g1 g4
  exact ⟨g1, s, g2, g4⟩

/-- A message of 300 bytes is cut, the line is there. -/
example : ∃ b, initial exP exFr = some b ∧ ∃ b', buildBufferMessage exP b 1 1047 = some b' ∧
    ∃ b'', getMessage exP 257 b' = some (List.replicate 239 97 ++ ascii " line: 1047", b'') := by
  obtain ⟨b, hb⟩ := Option.isSome_iff_exists.1 (show (initial exP exFr).isSome = true by decide +kernel)
  obtain ⟨b', h1, b'', h2, h3⟩ := C92_error ex_setup hb (fun _ _ _ => rfl) (m := 1) (l := 1047)
    (s := List.replicate 300 97) rfl (by decide +kernel) (by norm_num)
  refine ⟨b, hb, b', h1, b'', ?_⟩
  have he : (List.replicate 300 97).take 239 ++ ascii " line: " ++ ascii (Nat.repr 1047) =
      List.replicate 239 97 ++ ascii " line: 1047" := by decide +kernel
  rw [h2, he]

/-- The strings of the faulty cases are in modules. -/
example : Setup { exP with strs := [[97], [10]] } exFr ∧
    (initial { exP with strs := [[97], [10]] } exFr).isSome = true ∧
    [ascii "a", ascii "\\n"].mapM wat = some [[97], [10]] :=
  ⟨{ exQ_setup with }, by decide +kernel, by decide +kernel⟩

example : ∃ ls t, compile [[.text (List.replicate 231 97)]] = some (ls, t) ∧
    ∀ env, cRun t ls [(0, env)] = some (List.replicate 230 97 ++ [32] ++ [97] ++ [10]) := by
  obtain ⟨ls, t, h1, h2⟩ := C92_split_violated (s := List.replicate 231 97) (by unfold Visible; decide +kernel)
    (by decide +kernel) (by decide +kernel)
  exact ⟨ls, t, h1, fun env => by rw [h2 env]; decide +kernel⟩

example : compile [[.value 0], [.text (List.replicate 229 97 ++ [195, 169])]] = none :=
  C92_boundary_violated (s := List.replicate 229 97 ++ [195, 169]) (c := 169) (by decide +kernel) (by decide) [] [] [[.value 0]] []

end Verif.Props.Log
