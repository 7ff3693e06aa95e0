import Verif.JsonOut
import Verif.CMapLemmas
import Verif.NameLemmas

/-! # Lemmas about the JSON files -/

set_option linter.unusedSimpArgs false

namespace Verif.JsonOut
open Verif.ModArith (Res)
open Verif.Dag
open Verif.R1cs (Triple)

/-- A text that needs no escapes. -/
def Plain (t : Text) : Prop := ∀ c ∈ t, c ≠ '"' ∧ c ≠ '\\' ∧ ¬ c.toNat < 32

theorem digit_range {n : Nat} {c : Char} (h : c ∈ Nat.toDigits 10 n) : 48 ≤ c.toNat ∧ c.toNat ≤ 57 := by
  have := Nat.isDigit_of_mem_toDigits (by omega) (by omega) h
  simp only [Char.isDigit, Bool.and_eq_true, decide_eq_true_eq, ge_iff_le] at this
  exact ⟨this.1, this.2⟩

theorem plain_digits (n : Nat) : Plain (Nat.toDigits 10 n) := by
  intro c hc
  obtain ⟨h1, h2⟩ := digit_range hc
  refine ⟨?_, ?_, by omega⟩ <;> rintro rfl
  · revert h1; decide
  · revert h2; decide

theorem plain_key (k : Nat) : Plain (key k) := plain_digits k

theorem plain_number (v : Int) : Plain (number v) := by
  unfold number
  split
  · intro c hc
    rcases List.mem_cons.1 hc with rfl | hc
    · decide
    · exact plain_digits _ c hc
  · exact plain_digits _

theorem natOf_key (k : Nat) : natOf (Nat.toDigits 10 k) = some k := by
  unfold natOf
  rw [if_pos]
  · have := Nat.ofDigitChars_ten_toDigits (n := k)
    rw [Nat.ofDigitChars_eq_foldl] at this
    exact congrArg some this
  · refine ⟨Nat.toDigits_ne_nil, fun c hc => ?_⟩
    obtain ⟨h1, h2⟩ := digit_range hc
    exact ⟨h1, h2⟩

theorem intOf_number (v : Int) : intOf (number v) = some v := by
  unfold number
  split
  · rename_i h
    simp only [intOf, natOf_key, Option.map_some, Option.some.injEq]
    rw [Int.ofNat_natAbs_of_nonpos (Int.le_of_lt h), Int.neg_neg]
  · rename_i h
    have hd : ∀ t, Nat.toDigits 10 v.natAbs ≠ '-' :: t := by
      intro t ht
      have := digit_range (n := v.natAbs) (c := '-') (by rw [ht]; simp)
      revert this
      decide
    unfold intOf
    split
    · rename_i t ht
      exact absurd ht (hd t)
    · simp only [natOf_key, Option.map_some, Option.some.injEq]
      exact Int.natAbs_of_nonneg (Int.not_lt.1 h)

theorem key_inj {i j : Nat} (h : key i = key j) : i = j := digits_inj h

/-! ### Objects -/

/-- The entries of an object. -/
def ent (l : CMap Nat) : List (Text × Val) := l.map fun e => (key e.1, .str (number e.2))

/-- The entries of a map in ascending order. -/
def sorted (m : CMap Nat) : CMap Nat := (m.keys.insertionSort (· ≤ ·)).map fun k => (k, (CMap.get m k).getD 0)

theorem setKey_new (k : Text) (v : Val) : ∀ l : List (Text × Val), (∀ e ∈ l, e.1 ≠ k) → setKey k v l = l ++ [(k, v)]
  | [], _ => rfl
  | e :: l, h => by
    rw [setKey, if_neg (h e (by simp)), setKey_new k v l fun x hx => h x (by simp [hx])]
    rfl

theorem foldl_setKey (f : Nat → Val) : ∀ (ks : List Nat) (done : List Nat), (done ++ ks).Nodup →
    ks.foldl (fun l k => setKey (key k) (f k) l) (done.map fun k => (key k, f k)) =
      (done ++ ks).map fun k => (key k, f k)
  | [], done, _ => by simp
  | k :: ks, done, h => by
    rw [List.foldl_cons, setKey_new]
    · have := foldl_setKey f ks (done ++ [k]) (by simpa using h)
      rw [List.map_append] at this
      simp only [List.map_cons, List.map_nil] at this
      rw [this]
      simp
    · intro e he hk
      obtain ⟨j, hj, rfl⟩ := List.mem_map.1 he
      have := key_inj hk
      subst this
      rw [List.nodup_append] at h
      exact h.2.2 j hj j (by simp) rfl

theorem sortKeys_nodup {m : CMap Nat} (hw : m.WF) : (m.keys.insertionSort (· ≤ ·)).Nodup :=
  (List.perm_insertionSort _ _).nodup_iff.2 hw

theorem hashmap_eq {m : CMap Nat} (hw : m.WF) : hashmap m = .obj (ent (sorted m)) := by
  have := foldl_setKey (fun k => .str (number ((CMap.get m k).getD 0))) (m.keys.insertionSort (· ≤ ·)) []
    (by simpa using sortKeys_nodup hw)
  simp only [List.map_nil, List.nil_append] at this
  unfold hashmap
  rw [this]
  simp [ent, sorted]

theorem keys_sorted (m : CMap Nat) : (sorted m).keys = m.keys.insertionSort (· ≤ ·) := by
  simp [sorted, CMap.keys, Function.comp_def]

theorem sorted_wf {m : CMap Nat} (hw : m.WF) : (sorted m).WF := by
  unfold CMap.WF
  rw [keys_sorted]
  exact sortKeys_nodup hw

theorem sorted_lt {m : CMap Nat} (hw : m.WF) : (sorted m).keys.Pairwise (· < ·) := by
  rw [keys_sorted]
  have h1 := List.pairwise_insertionSort (· ≤ ·) m.keys
  have h2 := sortKeys_nodup hw
  exact (h1.and h2).imp fun h => Nat.lt_of_le_of_ne h.1 h.2

theorem get_sorted {m : CMap Nat} (hw : m.WF) (k : Nat) : (sorted m).get k = m.get k := by
  cases h : m.get k with
  | some v =>
    refine CMap.get_of_mem (sorted_wf hw) (List.mem_map.2 ⟨k, ?_, by rw [h]; rfl⟩)
    exact (List.perm_insertionSort _ _).mem_iff.2 (List.mem_map.2 ⟨(k, v), CMap.get_mem h, rfl⟩)
  | none =>
    cases h' : (sorted m).get k with
    | none => rfl
    | some v =>
      obtain ⟨j, hj, he⟩ := List.mem_map.1 (CMap.get_mem h')
      have hjk : j = k := by simpa using congrArg Prod.fst he
      subst hjk
      obtain ⟨⟨j', v'⟩, he', rfl⟩ := List.mem_map.1 ((List.perm_insertionSort _ _).mem_iff.1 hj)
      rw [CMap.get_of_mem hw he'] at h
      cases h

/-- Two orders of one map give the same entries. -/
theorem sorted_perm {m m' : CMap Nat} (hw : m.WF) (h : m.Perm m') : sorted m = sorted m' := by
  have hw' : m'.WF := (h.map Prod.fst).nodup_iff.1 hw
  have hk : m.keys.insertionSort (· ≤ ·) = m'.keys.insertionSort (· ≤ ·) := by
    have h1 := List.pairwise_insertionSort (· ≤ ·) m.keys
    have h2 := List.pairwise_insertionSort (· ≤ ·) m'.keys
    refine List.Perm.eq_of_pairwise ?_ h1 h2 ?_
    · intro a b _ _ hab hba
      omega
    · exact (List.perm_insertionSort _ _).trans ((h.map Prod.fst).trans (List.perm_insertionSort _ _).symm)
  have hg : ∀ k, m.get k = m'.get k := by
    intro k
    cases hk' : m'.get k with
    | some v => exact CMap.get_of_mem hw (h.mem_iff.2 (CMap.get_mem hk'))
    | none =>
      cases hk : m.get k with
      | none => rfl
      | some v =>
        rw [CMap.get_of_mem hw' (h.mem_iff.1 (CMap.get_mem hk))] at hk'
        cases hk'
  unfold sorted
  rw [hk]
  simp only [hg]

/-! ### Reading -/

theorem str_plain : ∀ (s r : Text), Plain s → str (s ++ '"' :: r) = some (s, r)
  | [], r, _ => by simp [str]
  | c :: s, r, h => by
    obtain ⟨h1, h2, h3⟩ := h c (by simp)
    rw [List.cons_append, str, if_neg h1, if_neg (by simp [h2]; omega),
      str_plain s r fun x hx => h x (by simp [hx])]
    rfl

theorem ws_quote (r : Text) : ws ('"' :: r) = '"' :: r := rfl
theorem ws_comma (r : Text) : ws (',' :: r) = ',' :: r := rfl
theorem ws_open (r : Text) : ws ('{' :: r) = '{' :: r := rfl
theorem ws_close (r : Text) : ws ('}' :: r) = '}' :: r := rfl
theorem ws_colon (r : Text) : ws (':' :: r) = ':' :: r := rfl
theorem ws_arr (r : Text) : ws ('[' :: r) = '[' :: r := rfl
theorem ws_end (r : Text) : ws (']' :: r) = ']' :: r := rfl
theorem ws_nl (r : Text) : ws ('\n' :: r) = ws r := rfl
theorem ws_sp (r : Text) : ws (' ' :: r) = ws r := rfl

theorem value_str (n : Nat) (s r : Text) (h : Plain s) : value (n + 1) ('"' :: (s ++ '"' :: r)) = some (.str s, r) := by
  rw [value, ws_quote]
  simp only [if_true, str_plain s r h, Option.map_some]

/-- The entry of a number in an object. -/
def entryText (e : Nat × Int) : Text := '"' :: (key e.1 ++ '"' :: ':' :: '"' :: (number e.2 ++ ['"']))

theorem dumpEntries_ent : ∀ l : CMap Nat, dumpEntries (ent l) = l.map entryText
  | [] => rfl
  | e :: l => by
    have := dumpEntries_ent l
    unfold ent at this ⊢
    rw [List.map_cons, dumpEntries, this, List.map_cons, dump]
    simp [entryText]

theorem members_ent : ∀ (l : CMap Nat) (n : Nat) (r : Text), l ≠ [] → l.length + 1 ≤ n →
    members n (commas (l.map entryText) ++ '}' :: r) = some (ent l, r)
  | [], _, _, h, _ => absurd rfl h
  | e :: l, 0, r, _, hn => by simp at hn
  | e :: l, 1, r, _, hn => by simp at hn
  | [e], n + 2, r, _, _ => by
    simp only [List.map_cons, List.map_nil, commas, entryText, List.cons_append, List.append_assoc, List.nil_append]
    rw [members, ws_quote]
    simp only [if_true, str_plain _ _ (plain_key _), ws_colon, value_str _ _ _ (plain_number _), ws_close]
    simp [ent]
  | e :: e' :: l, n + 2, r, _, hn => by
    have ih := members_ent (e' :: l) (n + 1) r (by simp) (by simp at hn ⊢; omega)
    simp only [List.map_cons, commas, entryText, List.cons_append, List.append_assoc, List.nil_append] at ih ⊢
    rw [members, ws_quote]
    simp only [if_true, str_plain _ _ (plain_key _), ws_colon, value_str _ _ _ (plain_number _), ws_comma, ih,
      Option.map_some]
    rfl

theorem commas_head : ∀ (l : List Text) (r : Text), l ≠ [] → (∀ t ∈ l, ∃ s, t = '"' :: s) → ∃ s, commas l ++ r = '"' :: s
  | [], _, h, _ => absurd rfl h
  | [t], r, _, h => by
    obtain ⟨s, rfl⟩ := h t (by simp)
    exact ⟨s ++ r, rfl⟩
  | t :: t' :: l, r, _, h => by
    obtain ⟨s, rfl⟩ := h t (by simp)
    exact ⟨_, rfl⟩

theorem value_obj (l : CMap Nat) (n : Nat) (r : Text) (hn : l.length + 2 ≤ n) :
    value n (dump (.obj (ent l)) ++ r) = some (.obj (ent l), r) := by
  obtain ⟨n, rfl⟩ : ∃ k, n = k + 1 := ⟨n - 1, by omega⟩
  rw [dump, dumpEntries_ent]
  simp only [List.cons_append, List.append_assoc, List.nil_append]
  rw [value, ws_open]
  cases l with
  | nil => simp [commas, ws_close, ent]
  | cons e l =>
    obtain ⟨s, hs⟩ := commas_head ((e :: l).map entryText) ('}' :: r) (by simp) (by
      intro t ht
      obtain ⟨x, _, rfl⟩ := List.mem_map.1 ht
      exact ⟨_, rfl⟩)
    have hm := members_ent (e :: l) n r (by simp) (by omega)
    dsimp only
    rw [if_neg (by decide), if_neg (by decide), if_pos rfl, hm, hs, ws_quote]
    simp

/-- A row of the file. -/
def row (c : Triple) : Val := .arr [.obj (ent (sorted c.1)), .obj (ent (sorted c.2.1)), .obj (ent (sorted c.2.2))]

theorem transform_eq {c : Triple} (h1 : c.1.WF) (h2 : c.2.1.WF) (h3 : c.2.2.WF) : transform c = row c := by
  rw [transform, hashmap_eq h1, hashmap_eq h2, hashmap_eq h3, row]

theorem length_commas : ∀ l : List Text, (∀ t ∈ l, 1 ≤ t.length) → l.length ≤ (commas l).length
  | [], _ => by simp [commas]
  | [t], h => by simpa [commas] using h t (by simp)
  | t :: t' :: l, h => by
    have ih := length_commas (t' :: l) fun x hx => h x (by simp [hx])
    have := h t (by simp)
    simp only [commas, List.length_append, List.length_cons] at ih ⊢
    omega

theorem length_obj (l : CMap Nat) : l.length + 2 ≤ (dump (.obj (ent l))).length := by
  rw [dump, dumpEntries_ent]
  have := length_commas (l.map entryText) (by
    intro t ht
    obtain ⟨x, _, rfl⟩ := List.mem_map.1 ht
    simp [entryText])
  simp at this ⊢
  omega

theorem dump_row (c : Triple) : dump (row c) = '[' :: (dump (.obj (ent (sorted c.1))) ++ ',' ::
    (dump (.obj (ent (sorted c.2.1))) ++ ',' :: (dump (.obj (ent (sorted c.2.2))) ++ [']']))) := by
  unfold row
  rw [dump]
  simp [dumps, commas]

theorem dump_obj_head (l : CMap Nat) (r : Text) : ∃ s, dump (.obj (ent l)) ++ r = '{' :: s := by
  rw [dump]
  exact ⟨_, rfl⟩

theorem value_row (c : Triple) (n : Nat) (r : Text) (hn : (dump (row c)).length ≤ n) :
    value n (dump (row c) ++ r) = some (row c, r) := by
  have l1 := length_obj (sorted c.1)
  have l2 := length_obj (sorted c.2.1)
  have l3 := length_obj (sorted c.2.2)
  rw [dump_row] at hn ⊢
  simp only [List.length_cons, List.length_append, List.length_nil] at hn
  obtain ⟨n, rfl⟩ : ∃ k, n = k + 4 := ⟨n - 4, by omega⟩
  simp only [List.cons_append, List.append_assoc, List.nil_append]
  rw [value, ws_arr]
  obtain ⟨s, hs⟩ := dump_obj_head (sorted c.1) (',' :: (dump (.obj (ent (sorted c.2.1))) ++ ',' ::
    (dump (.obj (ent (sorted c.2.2))) ++ ']' :: r)))
  dsimp only
  rw [if_neg (by decide), if_pos rfl, if_neg (by rw [hs, ws_open]; simp)]
  rw [items, value_obj _ _ _ (by omega)]
  simp only [ws_comma, if_true]
  rw [items, value_obj _ _ _ (by omega)]
  simp only [ws_comma, if_true]
  rw [items, value_obj _ _ _ (by omega)]
  simp only [ws_end]
  simp [row]

/-! ### The files -/

/-- Entries after the first. -/
def more (ts : List Text) : Text := ts.flatMap fun t => ',' :: '\n' :: t

/-- All the entries. -/
def listing : List Text → Text
  | [] => []
  | t :: ts => '\n' :: (t ++ more ts)

theorem constraint_started : ∀ (ts : List Text) (text : Text),
    ts.foldl (fun (w : Writer) t => w.constraint t) ⟨text, true⟩ = ⟨text ++ more ts, true⟩
  | [], text => by simp [more]
  | t :: ts, text => by
    rw [List.foldl_cons]
    have : (Writer.constraint ⟨text, true⟩ t) = ⟨text ++ ",\n".toList ++ t, true⟩ := rfl
    rw [this, constraint_started ts]
    simp [more]

theorem constraint_all (ts : List Text) :
    (ts.foldl (fun (w : Writer) t => w.constraint t) newConstraints).text = newConstraints.text ++ listing ts := by
  cases ts with
  | nil => simp [listing]
  | cons t ts =>
    rw [List.foldl_cons]
    have : newConstraints.constraint t = ⟨newConstraints.text ++ "\n".toList ++ t, true⟩ := rfl
    rw [this, constraint_started]
    simp [listing]

/-- The file of a list of constraints. -/
def file (cs : List Triple) : Text :=
  '{' :: '\n' :: '"' :: ("constraints".toList ++ '"' :: ':' :: ' ' :: '[' ::
    (listing (cs.map fun c => dump (transform c)) ++ '\n' :: ']' :: '\n' :: '}' :: []))

theorem file_eq (cs : List Triple) :
    ((cs.foldl (fun (w : Writer) c => w.constraint (dump (transform c))) newConstraints).endConstraints) = file cs := by
  have := constraint_all (cs.map fun c => dump (transform c))
  rw [List.foldl_map] at this
  unfold Writer.endConstraints
  rw [this]
  simp [file, newConstraints]

theorem portList_eq (map : BMap Nat) (storage : List C) (cs : List C)
    (h : storage.mapM (fun c => c.applyCorrespondence (fun s => BMap.get map s)) = .ok cs) :
    portList storage map = .ok (file (cs.map fun c => (c.a, c.b, c.c))) := by
  have key : ∀ (storage cs : List C) (w : Writer),
      storage.mapM (fun c => c.applyCorrespondence (fun s => BMap.get map s)) = .ok cs →
      storage.foldlM (fun (w : Writer) c => do
        let c ← c.applyCorrespondence (fun s => BMap.get map s)
        (.ok (w.constraint (dump (transform (c.a, c.b, c.c)))) : Res Writer)) w =
      .ok (cs.foldl (fun w c => w.constraint (dump (transform (c.a, c.b, c.c)))) w) := by
    intro storage
    induction storage with
    | nil =>
      intro cs w h
      simp only [List.mapM_nil] at h
      cases h
      rfl
    | cons c storage ih =>
      intro cs w h
      rw [List.mapM_cons] at h
      rw [List.foldlM_cons]
      cases hc : c.applyCorrespondence (fun s => BMap.get map s) with
      | error e => rw [hc] at h; cases h
      | ok c' =>
        cases hr : storage.mapM (fun c => c.applyCorrespondence (fun s => BMap.get map s)) with
        | error e => rw [hc, hr] at h; cases h
        | ok cs' =>
          rw [hc, hr] at h
          cases h
          exact ih cs' _ hr
  have h2 := file_eq (cs.map fun c => (c.a, c.b, c.c))
  rw [List.foldl_map] at h2
  unfold portList
  rw [key storage cs _ h]
  exact congrArg _ h2

theorem value_nl (n : Nat) (r : Text) : value n ('\n' :: r) = value n r := by
  cases n with
  | zero => rfl
  | succ n => rw [value, value, ws_nl]

theorem items_rows : ∀ (cs : List Triple) (c : Triple) (n : Nat) (r : Text),
    (dump (row c)).length + (more (cs.map fun c => dump (row c))).length + 1 ≤ n →
    items n ('\n' :: (dump (row c) ++ (more (cs.map fun c => dump (row c)) ++ '\n' :: ']' :: r))) =
      some ((c :: cs).map row, r)
  | [], c, n, r, hn => by
    obtain ⟨n, rfl⟩ : ∃ k, n = k + 1 := ⟨n - 1, by omega⟩
    simp only [List.map_nil, more, List.flatMap_nil, List.length_nil, List.nil_append] at hn ⊢
    rw [items, value_nl, value_row c n _ (by omega)]
    simp only [ws_nl, ws_end]
    simp
  | c' :: cs, c, n, r, hn => by
    obtain ⟨n, rfl⟩ : ∃ k, n = k + 1 := ⟨n - 1, by omega⟩
    simp only [List.map_cons, more, List.flatMap_cons, List.length_append, List.length_cons] at hn
    have ih := items_rows cs c' n r (by simp only [more]; omega)
    rw [items, value_nl, value_row c n _ (by omega)]
    simp only [more, List.map_cons, List.flatMap_cons, List.cons_append, List.append_assoc] at ih ⊢
    simp only [ws_comma, if_true, ih, Option.map_some]

theorem plain_constraints : Plain "constraints".toList := by
  intro c hc
  revert c
  decide

theorem dump_row_head (c : Triple) (r : Text) : ∃ s, dump (row c) ++ r = '[' :: s := by
  rw [dump_row]
  exact ⟨_, rfl⟩

theorem value_list (cs : List Triple) (n : Nat) (r : Text)
    (hn : (listing (cs.map fun c => dump (row c))).length + 2 ≤ n) :
    value n (' ' :: '[' :: (listing (cs.map fun c => dump (row c)) ++ '\n' :: ']' :: r)) = some (.arr (cs.map row), r) := by
  obtain ⟨n, rfl⟩ : ∃ k, n = k + 1 := ⟨n - 1, by omega⟩
  rw [value, ws_sp, ws_arr]
  dsimp only
  rw [if_neg (by decide), if_pos rfl]
  cases cs with
  | nil =>
    simp [listing, ws_nl, ws_end]
  | cons c cs =>
    simp only [List.map_cons, listing, List.length_cons, List.length_append] at hn
    have h := items_rows cs c n r (by omega)
    simp only [List.map_cons, listing, List.cons_append, List.append_assoc] at h ⊢
    obtain ⟨s, hs⟩ := dump_row_head c (more (cs.map fun c => dump (row c)) ++ '\n' :: ']' :: r)
    rw [h, ws_nl, hs, ws_arr]
    simp

theorem map_transform {cs : List Triple} (hw : ∀ c ∈ cs, c.1.WF ∧ c.2.1.WF ∧ c.2.2.WF) :
    (cs.map fun c => dump (transform c)) = cs.map fun c => dump (row c) :=
  List.map_congr_left fun c hc => by rw [transform_eq (hw c hc).1 (hw c hc).2.1 (hw c hc).2.2]

theorem parse_file {cs : List Triple} (hw : ∀ c ∈ cs, c.1.WF ∧ c.2.1.WF ∧ c.2.2.WF) :
    parse (file cs) = some (.obj [("constraints".toList, .arr (cs.map row))]) := by
  unfold parse file
  rw [map_transform hw]
  simp only [List.length_cons, List.length_append, List.length_nil]
  rw [value, ws_open]
  dsimp only
  rw [if_neg (by decide), if_neg (by decide), if_pos rfl]
  rw [ws_nl, ws_quote, if_neg (by simp)]
  rw [members, ws_nl, ws_quote]
  dsimp only
  rw [if_pos rfl, str_plain _ _ plain_constraints]
  dsimp only
  rw [ws_colon]
  dsimp only
  rw [if_pos rfl, value_list cs _ _ (by omega)]
  simp [ws_nl, ws_close]
  rfl

theorem mapM_some {α β : Type} (f : α → Option β) (g : α → β) : ∀ l : List α, (∀ a ∈ l, f a = some (g a)) → l.mapM f = some (l.map g)
  | [], _ => rfl
  | a :: l, h => by
    rw [List.mapM_cons, h a (by simp), mapM_some f g l fun x hx => h x (by simp [hx])]
    rfl

theorem readMap_ent (l : CMap Nat) : readMap (.obj (ent l)) = some l := by
  rw [readMap, ent, List.mapM_map]
  rw [mapM_some _ id]
  · simp
  · intro e _
    simp only [Function.comp, key, natOf_key, intOf_number, id]

theorem readRow_row (c : Triple) : readRow (row c) = some (sorted c.1, sorted c.2.1, sorted c.2.2) := by
  simp only [readRow, row, readMap_ent]

theorem read_file {cs : List Triple} (hw : ∀ c ∈ cs, c.1.WF ∧ c.2.1.WF ∧ c.2.2.WF) :
    readConstraints (file cs) = some (cs.map fun c => (sorted c.1, sorted c.2.1, sorted c.2.2)) := by
  rw [readConstraints, parse_file hw]
  dsimp only
  rw [if_pos rfl, List.mapM_map, mapM_some _ fun c : Triple => (sorted c.1, sorted c.2.1, sorted c.2.2)]
  intro c _
  simp only [Function.comp, readRow_row]

/-! ### Substitutions -/

/-- The entry of a substitution. -/
def subText (s : Nat × CMap Nat) : Text := '"' :: (key s.1 ++ '"' :: ' ' :: ':' :: ' ' :: dump (hashmap s.2))

theorem subs_started : ∀ (ss : List (Nat × CMap Nat)) (text : Text),
    logSubstitutions ⟨text, true⟩ ss = ⟨text ++ more (ss.map subText), true⟩
  | [], text => by simp [more, logSubstitutions]
  | s :: ss, text => by
    have : logSubstitutions ⟨text, true⟩ (s :: ss) = logSubstitutions ⟨text ++ ",\n".toList ++ subText s, true⟩ ss := by
      simp [logSubstitutions, Writer.substitution, portSubstitution, subText]
    rw [this, subs_started ss]
    simp [more]

theorem subs_all (ss : List (Nat × CMap Nat)) :
    (logSubstitutions newSubstitutions ss).text = newSubstitutions.text ++ listing (ss.map subText) := by
  cases ss with
  | nil => simp [listing, logSubstitutions]
  | cons s ss =>
    have : logSubstitutions newSubstitutions (s :: ss) = logSubstitutions ⟨newSubstitutions.text ++ "\n".toList ++ subText s, true⟩ ss := by
      simp [logSubstitutions, Writer.substitution, portSubstitution, subText, newSubstitutions]
    rw [this, subs_started]
    simp [listing]

theorem batches_eq (bs : List (List (Nat × CMap Nat))) (w : Writer) :
    bs.foldl logSubstitutions w = logSubstitutions w bs.flatten := by
  induction bs generalizing w with
  | nil => simp [logSubstitutions]
  | cons b bs ih =>
    rw [List.foldl_cons, ih]
    simp [logSubstitutions]

theorem substitutionFile_eq (bs : List (List (Nat × CMap Nat))) :
    substitutionFile bs = '{' :: (listing (bs.flatten.map subText) ++ '\n' :: '}' :: []) := by
  unfold substitutionFile
  rw [batches_eq, Writer.endSubstitutions, subs_all]
  simp [newSubstitutions]

/-- The value of an entry. -/
def subVal (s : Nat × CMap Nat) : Text × Val := (key s.1, .obj (ent (sorted s.2)))

theorem members_subs : ∀ (ss : List (Nat × CMap Nat)) (s : Nat × CMap Nat) (n : Nat) (r : Text),
    (∀ x ∈ s :: ss, x.2.WF) → (subText s).length + (more (ss.map subText)).length + 1 ≤ n →
    members n ('\n' :: (subText s ++ (more (ss.map subText) ++ '\n' :: '}' :: r))) = some ((s :: ss).map subVal, r) := by
  intro ss
  have sp : ∀ n r, value n (' ' :: r) = value n r := by
    intro n r
    cases n with
    | zero => rfl
    | succ n => rw [value, value, ws_sp]
  have len : ∀ s : Nat × CMap Nat, s.2.WF → (sorted s.2).length + 2 ≤ (subText s).length := by
    intro s hs
    have := length_obj (sorted s.2)
    simp only [subText, hashmap_eq hs, List.length_cons, List.length_append]
    omega
  induction ss with
  | nil =>
    intro s n r hw hn
    have hs := hw s (by simp)
    have hl := len s hs
    obtain ⟨n, rfl⟩ : ∃ k, n = k + 1 := ⟨n - 1, by omega⟩
    simp only [List.map_nil, more, List.flatMap_nil, List.length_nil, List.nil_append] at hn ⊢
    rw [members, ws_nl]
    simp only [subText, List.cons_append, List.append_assoc, List.nil_append, ws_quote, if_true,
      str_plain _ _ (plain_key _), ws_sp, ws_colon, sp]
    rw [hashmap_eq hs, value_obj _ _ _ (by omega)]
    simp [ws_nl, ws_close, subVal]
  | cons s' ss ih =>
    intro s n r hw hn
    have hs := hw s (by simp)
    have hl := len s hs
    obtain ⟨n, rfl⟩ : ∃ k, n = k + 1 := ⟨n - 1, by omega⟩
    simp only [List.map_cons, more, List.flatMap_cons, List.length_append, List.length_cons] at hn
    have ih := ih s' n r (fun x hx => hw x (by simp [List.mem_cons.1 hx])) (by simp only [more]; omega)
    rw [members, ws_nl]
    generalize hrest : more ((s' :: ss).map subText) ++ '\n' :: '}' :: r = rest
    simp only [subText, List.cons_append, List.append_assoc, List.nil_append, ws_quote, if_true,
      str_plain _ _ (plain_key _), ws_sp, ws_colon, sp]
    rw [hashmap_eq hs, value_obj _ _ _ (by omega)]
    rw [← hrest]
    simp only [more, List.map_cons, List.flatMap_cons, List.cons_append, List.append_assoc] at ih ⊢
    simp only [ws_comma, if_true, ih, Option.map_some]
    rfl

theorem read_substitutions {bs : List (List (Nat × CMap Nat))} (hw : ∀ s ∈ bs.flatten, s.2.WF) :
    readSubstitutions (substitutionFile bs) = some (bs.flatten.map fun s => (s.1, sorted s.2)) := by
  have hp : parse (substitutionFile bs) = some (.obj (bs.flatten.map subVal)) := by
    rw [substitutionFile_eq]
    generalize hss : bs.flatten = ss at hw ⊢
    unfold parse
    simp only [List.length_cons, List.length_append, List.length_nil]
    rw [value, ws_open]
    dsimp only
    rw [if_neg (by decide), if_neg (by decide), if_pos rfl]
    cases ss with
    | nil => simp [listing, ws_nl, ws_close]; rfl
    | cons s ss =>
      have h := members_subs ss s ((listing ((s :: ss).map subText)).length + (0 + 1 + 1) + 1) [] hw (by
        simp only [List.map_cons, listing, List.length_cons, List.length_append]
        omega)
      simp only [List.map_cons, listing, List.cons_append, List.append_assoc] at h ⊢
      rw [h, ws_nl]
      simp only [subText, List.cons_append, ws_quote]
      simp
      rfl
  rw [readSubstitutions, hp]
  dsimp only
  rw [List.mapM_map, mapM_some _ fun s : Nat × CMap Nat => (s.1, sorted s.2)]
  intro s _
  simp only [Function.comp, subVal, key, natOf_key, readMap_ent]

end Verif.JsonOut
