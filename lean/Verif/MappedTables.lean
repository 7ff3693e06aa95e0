import Verif.MappedLemmas
import Mathlib.Data.List.Nodup

/-! # Lemmas about the tables of `Verif.Mapped` -/

namespace Verif.Mapped

set_option linter.unusedSimpArgs false
set_option linter.unusedVariables false

open Verif.ModArith (Fail Res)

/-! ## Tables of the C++ program -/

theorem readDef_enc (d : Def) (rest : List Nat) : readDef (encDef d ++ rest) = some (d.run, rest) := by
  have hl : d.lengths.tail.length = d.lengths.length - 1 := List.length_tail
  have e1 : (d.lengths.tail ++ ([d.size, d.bus.getD 0] ++ rest)).drop (d.lengths.length - 1) =
      d.size :: d.bus.getD 0 :: rest := by
    rw [← hl, List.drop_left]; rfl
  have e2 : (d.lengths.tail ++ ([d.size, d.bus.getD 0] ++ rest)).take (d.lengths.length - 1) = d.lengths.tail := by
    rw [← hl, List.take_left]
  have e : encDef d ++ rest = d.offset :: (d.lengths.length - 1) ::
      (d.lengths.tail ++ ([d.size, d.bus.getD 0] ++ rest)) := by
    simp [encDef]
  rw [e]
  simp only [readDef, e1, e2, hl, if_true]
  rfl

theorem readDefs_enc : ∀ (ds : List Def) (rest : List Nat),
    readDefs ds.length (ds.flatMap encDef ++ rest) = some (ds.map Def.run, rest)
  | [], rest => rfl
  | d :: ds, rest => by
    simp only [List.length_cons, List.flatMap_cons, List.append_assoc, readDefs, readDef_enc, readDefs_enc ds rest,
      List.map_cons]

theorem readPair_enc (cap : Option Nat) (ds : List Def) (rest : List Nat) (h : ∀ c, cap = some c → ds.length ≤ c) :
    readPair cap (encDefs ds ++ rest) = some (ds.map Def.run, rest) := by
  simp only [encDefs, List.cons_append, readPair]
  rw [if_pos, readDefs_enc]
  cases cap with
  | none => simp
  | some c => simpa using h c rfl

theorem readIo_enc : ∀ (io : List (Nat × List Def)) (rest : List Nat),
    readIo (io.map (·.1)) (io.flatMap (fun e => encDefs e.2) ++ rest) =
      some (io.map fun e => (e.1, e.2.map Def.run), rest)
  | [], rest => rfl
  | e :: io, rest => by
    have hp := readPair_enc none e.2 (io.flatMap (fun e => encDefs e.2) ++ rest) (fun c h => by simp at h)
    simp only [List.map_cons, List.flatMap_cons, List.append_assoc, readIo, hp, readIo_enc io rest]

theorem readBuses_enc : ∀ (bs : List (List Def)) (rest : List Nat), (∀ b ∈ bs, b.length ≤ 10) →
    readBuses bs.length (bs.flatMap encDefs ++ rest) = some (bs.map (fun b => b.map Def.run), rest)
  | [], rest, _ => rfl
  | b :: bs, rest, h => by
    simp only [List.length_cons, List.flatMap_cons, List.append_assoc, readBuses,
      readPair_enc (some 10) b _ (fun c hc => by cases hc; exact h b (by simp)),
      readBuses_enc bs rest (fun b' hb' => h b' (by simp [hb'])), List.map_cons]

theorem readTables_enc (io : List (Nat × List Def)) (buses : List (List Def)) (rest : List Nat) (hio : io ≠ [])
    (hb : ∀ b ∈ buses, b.length ≤ 10) : readTables io.length buses.length (encTables io buses ++ rest) =
      some (io.map fun e => (e.1, e.2.map Def.run), buses.map fun b => b.map Def.run) := by
  have hl : (io.map (·.1)).length = io.length := by simp
  simp only [readTables, encTables, if_neg hio, List.append_assoc]
  rw [if_neg (by simpa using hio)]
  have e1 : (io.map (·.1) ++ (io.flatMap (fun e => encDefs e.2) ++ (buses.flatMap encDefs ++ rest))).take io.length =
      io.map (·.1) := by
    conv_lhs => rw [← hl]
    rw [List.take_left]
  have e2 : (io.map (·.1) ++ (io.flatMap (fun e => encDefs e.2) ++ (buses.flatMap encDefs ++ rest))).drop io.length =
      io.flatMap (fun e => encDefs e.2) ++ (buses.flatMap encDefs ++ rest) := by
    conv_lhs => rw [← hl]
    rw [List.drop_left]
  rw [e1, e2, readIo_enc]
  simp only [readBuses_enc buses rest hb]

/-! ## Memory image of the wasm program -/

theorem memOf_get (base : Nat) (ws : List Nat) (k w : Nat) (h : ws[k]? = some w) :
    memOf base ws ((base + 4 * k : Nat) : Int) = some (w : Int) := by
  have h1 : ((base + 4 * k : Nat) : Int) - base = 4 * (k : Int) := by push_cast; ring
  unfold memOf
  rw [h1, if_pos ⟨by push_cast; omega, by omega⟩]
  have h2 : (4 * (k : Int) / 4).toNat = k := by omega
  rw [h2, h]; rfl

theorem length_listPtrs : ∀ (s : Nat) (m : List (Option (List Def))), (listPtrs s m).length = m.length
  | _, [] => rfl
  | s, some v :: r => by simp [listPtrs, length_listPtrs _ r]
  | s, none :: r => by simp [listPtrs, length_listPtrs _ r]

theorem length_defPtrs : ∀ (p : Nat) (ds : List Def), (defPtrs p ds).1.length = ds.length
  | _, [] => rfl
  | p, d :: ds => by simp [defPtrs, length_defPtrs _ ds]

theorem length_infoPtrs : ∀ (p : Nat) (m : List (Option (List Def))), (infoPtrs p m).length = countDefs m
  | _, [] => rfl
  | p, some v :: r => by simp [infoPtrs, countDefs, length_infoPtrs _ r, length_defPtrs]
  | p, none :: r => by simp [infoPtrs, countDefs, length_infoPtrs _ r]

theorem length_defWords (fb : Nat) (d : Def) : 4 * (defWords fb d).length = defBytes d := by
  unfold defWords defBytes
  cases hl : d.lengths <;> cases hb : d.bus <;> simp <;> omega

theorem defBytes_words (d : Def) : defBytes d = ((if d.lengths.length = 0 then 1 else d.lengths.length + 1) +
    (if d.bus.isSome then 1 else 0)) * 4 := by
  unfold defBytes
  split <;> split <;> omega

theorem length_flatMap_words (fb : Nat) : ∀ (ds : List Def), 4 * (ds.flatMap (defWords fb)).length =
    (ds.map defBytes).sum
  | [] => rfl
  | d :: ds => by
    simp only [List.flatMap_cons, List.length_append, List.map_cons, List.sum_cons]
    have := length_flatMap_words fb ds
    have := length_defWords fb d
    omega

theorem length_infoWords (fb : Nat) : ∀ (m : List (Option (List Def))), 4 * (infoWords fb m).length = infoSize m
  | [] => rfl
  | none :: r => by simpa [infoWords, infoSize] using length_infoWords fb r
  | some v :: r => by
    simp only [infoWords, infoSize, List.length_append]
    have h1 := length_infoWords fb r
    have h2 := length_flatMap_words fb v
    have h3 : v.map defBytes = v.map fun d => ((if d.lengths.length = 0 then 1 else d.lengths.length + 1) +
        (if d.bus.isSome then 1 else 0)) * 4 := List.map_congr_left fun d _ => defBytes_words d
    rw [h3] at h2
    omega

theorem listPtrs_get : ∀ {m : List (Option (List Def))} {s t : Nat} {ds : List Def}, m[t]? = some (some ds) →
    (listPtrs s m)[t]? = some (s + 4 * countDefs (m.take t))
  | [], s, t, ds, h => by simp at h
  | some v :: r, s, 0, ds, h => by simp [listPtrs, countDefs]
  | none :: r, s, 0, ds, h => by simp at h
  | some v :: r, s, t + 1, ds, h => by
    simp only [listPtrs, List.getElem?_cons_succ, List.take_succ_cons, countDefs]
    rw [listPtrs_get (m := r) (by simpa using h)]
    congr 1
    ring
  | none :: r, s, t + 1, ds, h => by
    simp only [listPtrs, List.getElem?_cons_succ, List.take_succ_cons, countDefs]
    rw [listPtrs_get (m := r) (by simpa using h)]

/-- Inside one list: the pointer of a definition and its place among the words. -/
theorem defPtrs_get (fb : Nat) : ∀ {ds : List Def} {p c : Nat} {d : Def}, ds[c]? = some d →
    ∃ w1 w2, ds.flatMap (defWords fb) = w1 ++ defWords fb d ++ w2 ∧ (defPtrs p ds).1[c]? = some (p + 4 * w1.length)
  | [], p, c, d, h => by simp at h
  | d' :: ds, p, 0, d, h => by
    simp only [List.getElem?_cons_zero, Option.some.injEq] at h
    subst h
    exact ⟨[], ds.flatMap (defWords fb), by simp, by simp [defPtrs]⟩
  | d' :: ds, p, c + 1, d, h => by
    obtain ⟨w1, w2, h1, h2⟩ := defPtrs_get fb (ds := ds) (p := p + defBytes d') (c := c) (d := d) (by simpa using h)
    refine ⟨defWords fb d' ++ w1, w2, by simp [h1], ?_⟩
    simp only [defPtrs, List.getElem?_cons_succ, h2]
    have := length_defWords fb d'
    simp only [List.length_append, Option.some.injEq]
    omega

theorem defPtrs_end (fb : Nat) : ∀ (ds : List Def) (p : Nat),
    (defPtrs p ds).2 = p + 4 * (ds.flatMap (defWords fb)).length
  | [], p => rfl
  | d :: ds, p => by
    simp only [defPtrs, List.flatMap_cons, List.length_append]
    rw [defPtrs_end fb ds]
    have := length_defWords fb d
    omega

theorem infoPtrs_get (fb : Nat) : ∀ {m : List (Option (List Def))} {p t c : Nat} {ds : List Def} {d : Def},
    m[t]? = some (some ds) → ds[c]? = some d →
    ∃ w1 w2, infoWords fb m = w1 ++ defWords fb d ++ w2 ∧
      (infoPtrs p m)[countDefs (m.take t) + c]? = some (p + 4 * w1.length)
  | [], p, t, c, ds, d, h, hc => by simp at h
  | none :: r, p, 0, c, ds, d, h, hc => by simp at h
  | none :: r, p, t + 1, c, ds, d, h, hc => by
    obtain ⟨w1, w2, h1, h2⟩ := infoPtrs_get fb (m := r) (p := p) (t := t) (by simpa using h) hc
    exact ⟨w1, w2, by simpa [infoWords] using h1, by simpa [infoPtrs, countDefs] using h2⟩
  | some v :: r, p, 0, c, ds, d, h, hc => by
    simp only [List.getElem?_cons_zero, Option.some.injEq] at h
    subst h
    obtain ⟨w1, w2, h1, h2⟩ := defPtrs_get fb (p := p) hc
    refine ⟨w1, w2 ++ infoWords fb r, by simp [infoWords, h1], ?_⟩
    have hlt : c < (defPtrs p v).1.length := by
      rw [length_defPtrs]
      exact (List.getElem?_eq_some_iff.1 hc).1
    simp only [infoPtrs, List.take_zero, countDefs, Nat.zero_add]
    rw [List.getElem?_append_left hlt, h2]
  | some v :: r, p, t + 1, c, ds, d, h, hc => by
    obtain ⟨w1, w2, h1, h2⟩ := infoPtrs_get fb (m := r) (p := (defPtrs p v).2) (t := t) (by simpa using h) hc
    refine ⟨v.flatMap (defWords fb) ++ w1, w2, by simp [infoWords, h1], ?_⟩
    simp only [infoPtrs, List.take_succ_cons, countDefs]
    have e : v.length + countDefs (r.take t) + c = (defPtrs p v).1.length + (countDefs (r.take t) + c) := by
      rw [length_defPtrs]; omega
    rw [e, List.getElem?_append_right (by omega), Nat.add_sub_cancel_left, h2, defPtrs_end fb]
    simp only [List.length_append, Option.some.injEq]
    omega

theorem defAt_of_words {mem : Int → Option Int} {fb : Nat} {D : Nat} {d : Def}
    (h : ∀ j w : Nat, (defWords fb d)[j]? = some w → mem ((D + 4 * j : Nat) : Int) = some (w : Int)) :
    DefAt mem fb (D : Int) d := by
  constructor
  · have := h 0 (d.offset * fb) (by simp [defWords])
    simpa using this
  · intro k l hk hl
    have hne : d.lengths ≠ [] := by
      intro he; rw [he] at hl; simp at hl
    obtain ⟨k, rfl⟩ : ∃ k', k = k' + 1 := ⟨k - 1, by omega⟩
    have ht : d.lengths.tail[k]? = some l := by rw [List.getElem?_tail]; exact hl
    have hlt : k < d.lengths.tail.length := (List.getElem?_eq_some_iff.1 ht).1
    have := h (k + 1) l (by
      simp only [defWords, List.getElem?_cons_succ, if_pos hne, List.append_assoc]
      rw [List.getElem?_append_left hlt, ht])
    simpa using this
  · intro hne
    have hl : d.lengths.tail.length = d.lengths.length - 1 := List.length_tail
    have hpos : 0 < d.lengths.length := List.length_pos_iff.2 hne
    have := h d.lengths.length d.size (by
      obtain ⟨n, hn⟩ : ∃ n, d.lengths.length = n + 1 := ⟨d.lengths.length - 1, by omega⟩
      rw [hn]
      simp only [defWords, List.getElem?_cons_succ, if_pos hne, List.append_assoc]
      rw [List.getElem?_append_right (by omega)]
      have : n - d.lengths.tail.length = 0 := by omega
      rw [this]; simp)
    simpa using this
  · intro b hb
    by_cases hne : d.lengths = []
    · have := h 1 b (by simp [defWords, hne, hb])
      simp only [hne, if_true]
      simpa using this
    · have hl : d.lengths.tail.length = d.lengths.length - 1 := List.length_tail
      have hpos : 0 < d.lengths.length := List.length_pos_iff.2 hne
      have := h (d.lengths.length + 1) b (by
        simp only [defWords, List.getElem?_cons_succ, if_pos hne, hb, Option.toList]
        rw [List.getElem?_append_right (by simp; omega)]
        have : d.lengths.length - (d.lengths.tail ++ [d.size]).length = 0 := by simp; omega
        rw [this]; simp)
      rw [if_neg hne]
      simpa using this

/-- Lists laid out as three consecutive blocks can be followed through the pointers. -/
theorem listsAt_of_blocks (base fb : Nat) (pre post : List Nat) (m : List (Option (List Def))) :
    ListsAt (memOf base (pre ++ (listPtrs (base + 4 * pre.length + m.length * 4) m ++
      infoPtrs (base + 4 * pre.length + m.length * 4 + countDefs m * 4) m ++ infoWords fb m) ++ post)) fb
      (base + 4 * pre.length) m := by
  intro t ds ht
  have htl : t < m.length := (List.getElem?_eq_some_iff.1 ht).1
  have hA := listPtrs_get (s := base + 4 * pre.length + m.length * 4) ht
  refine ⟨((base + 4 * pre.length + m.length * 4 + 4 * countDefs (m.take t) : Nat) : Int), ?_, ?_⟩
  · have := memOf_get base (pre ++ (listPtrs (base + 4 * pre.length + m.length * 4) m ++
      infoPtrs (base + 4 * pre.length + m.length * 4 + countDefs m * 4) m ++ infoWords fb m) ++ post) (pre.length + t) _ (by
        rw [List.append_assoc, List.getElem?_append_right (by omega), Nat.add_sub_cancel_left, List.append_assoc,
          List.append_assoc, List.getElem?_append_left (by rw [length_listPtrs]; exact htl)]
        exact hA)
    rw [← this]
    congr 1
    push_cast
    ring
  · intro c d hc
    obtain ⟨w1, w2, h1, h2⟩ := infoPtrs_get fb (p := base + 4 * pre.length + m.length * 4 + countDefs m * 4) ht hc
    refine ⟨((base + 4 * pre.length + m.length * 4 + countDefs m * 4 + 4 * w1.length : Nat) : Int), ?_, ?_⟩
    · have hlt : countDefs (m.take t) + c <
          (infoPtrs (base + 4 * pre.length + m.length * 4 + countDefs m * 4) m).length :=
        (List.getElem?_eq_some_iff.1 h2).1
      have := memOf_get base (pre ++ (listPtrs (base + 4 * pre.length + m.length * 4) m ++
        infoPtrs (base + 4 * pre.length + m.length * 4 + countDefs m * 4) m ++ infoWords fb m) ++ post)
        (pre.length + (m.length + (countDefs (m.take t) + c))) _ (by
          rw [List.append_assoc, List.getElem?_append_right (by omega), Nat.add_sub_cancel_left, List.append_assoc,
            List.append_assoc, List.getElem?_append_right (by rw [length_listPtrs]; omega), length_listPtrs,
            Nat.add_sub_cancel_left, List.getElem?_append_left hlt]
          exact h2)
      rw [← this]
      congr 1
      push_cast
      ring
    · apply defAt_of_words
      intro j w hj
      have hjl : j < (defWords fb d).length := (List.getElem?_eq_some_iff.1 hj).1
      have := memOf_get base (pre ++ (listPtrs (base + 4 * pre.length + m.length * 4) m ++
        infoPtrs (base + 4 * pre.length + m.length * 4 + countDefs m * 4) m ++ infoWords fb m) ++ post)
        (pre.length + (m.length + (countDefs m + (w1.length + j)))) w (by
          rw [List.append_assoc, List.getElem?_append_right (by omega), Nat.add_sub_cancel_left, List.append_assoc,
            List.append_assoc, List.getElem?_append_right (by rw [length_listPtrs]; omega), length_listPtrs,
            Nat.add_sub_cancel_left, List.getElem?_append_right (by rw [length_infoPtrs]; omega), length_infoPtrs,
            Nat.add_sub_cancel_left, h1, List.append_assoc, List.append_assoc,
            List.getElem?_append_right (by omega), Nat.add_sub_cancel_left, List.getElem?_append_left hjl]
          exact hj)
      rw [← this]
      congr 1
      push_cast
      ring

theorem image_lists (base fb : Nat) (io : List (Option (List Def))) (buses : List (List Def)) :
    ListsAt (memOf base (image base fb io buses)) fb base io ∧
      ListsAt (memOf base (image base fb io buses)) fb (busStart base io) (buses.map some) := by
  constructor
  · have := listsAt_of_blocks base fb [] (listPtrs (busStart base io + buses.length * 4) (buses.map some)
      ++ infoPtrs (busStart base io + buses.length * 4 + countDefs (buses.map some) * 4) (buses.map some)
      ++ infoWords fb (buses.map some)) io
    simpa [image] using this
  · have hlen : base + 4 * (listPtrs (base + io.length * 4) io ++
        infoPtrs (base + io.length * 4 + countDefs io * 4) io ++ infoWords fb io).length = busStart base io := by
      simp only [List.length_append, length_listPtrs, length_infoPtrs, busStart]
      have := length_infoWords fb io
      omega
    have := listsAt_of_blocks base fb (listPtrs (base + io.length * 4) io ++
        infoPtrs (base + io.length * 4 + countDefs io * 4) io ++ infoWords fb io) [] (buses.map some)
    rw [hlen] at this
    simpa [image] using this

/-! ## Signal codes -/

theorem ioList_codes {first : List Wire} : ∀ {ws fio fint : List Wire}, first = fio ++ fint →
    (first.map Wire.name).Nodup → (∀ w ∈ ws, w.lengths.foldl (· * ·) 1 ≠ 0) → ∀ {pre : List Wire},
    fio.map Wire.name = pre.map Wire.name ++ (ws.filter (·.io)).map Wire.name →
    ∃ l, ioList first ws = .ok l ∧ l.map (·.1) = List.range' pre.length (ws.filter (·.io)).length ∧
      l.map (·.2) = (ws.filter (·.io)).map fun w => ⟨w.localId, w.lengths, w.size / w.lengths.foldl (· * ·) 1, w.bus⟩
  | [], fio, fint, hf, hn, h0, pre, hp => ⟨[], rfl, rfl, rfl⟩
  | w :: ws, fio, fint, hf, hn, h0, pre, hp => by
    have hw := h0 w (by simp)
    by_cases hio : w.io = true
    · rw [List.filter_cons_of_pos hio, List.map_cons] at hp
      obtain ⟨l, h1, h2, h3⟩ := ioList_codes (ws := ws) hf hn (fun w' hw' => h0 w' (by simp [hw'])) (pre := pre ++ [w])
        (by rw [hp]; simp)
      have hid : signalId first w.name = .ok pre.length := by
        have hnm : first.map Wire.name = pre.map Wire.name ++ w.name :: ((ws.filter (·.io)).map Wire.name ++ fint.map Wire.name) := by
          rw [hf, List.map_append, hp]; simp
        have hfi : first.findIdx? (fun v => v.name = w.name) = some pre.length := by
          rw [List.findIdx?_eq_some_iff_getElem]
          have hlt : pre.length < first.length := by
            have := congrArg List.length hnm
            simp at this
            omega
          have hget : ∀ i (hi : i < first.length), first[i].name = (first.map Wire.name)[i]'(by simpa using hi) := by
            intro i hi; simp
          refine ⟨hlt, ?_, ?_⟩
          · simp only [decide_eq_true_eq]
            rw [hget _ hlt]
            simp only [hnm]
            rw [List.getElem_append_right (by simp)]
            simp
          · intro j hj
            simp only [decide_eq_true_eq]
            intro he
            rw [hget _ (by omega)] at he
            have hw2 : (first.map Wire.name)[pre.length]'(by simpa using hlt) = w.name := by
              simp only [hnm]
              rw [List.getElem_append_right (by simp)]
              simp
            have := (List.Nodup.getElem_inj_iff hn).1 (he.trans hw2.symm)
            omega
        simp only [signalId, hfi]
      refine ⟨(pre.length, ⟨w.localId, w.lengths, w.size / w.lengths.foldl (· * ·) 1, w.bus⟩) :: l, ?_, ?_, ?_⟩
      · simp only [ioList, if_neg hw, hio, if_true, hid, h1]
      · rw [List.filter_cons_of_pos hio, List.map_cons, h2]
        simp [List.range'_succ]
      · rw [List.filter_cons_of_pos hio, List.map_cons, h3, List.map_cons]
    · rw [List.filter_cons_of_neg hio] at hp ⊢
      obtain ⟨l, h1, h2, h3⟩ := ioList_codes (ws := ws) hf hn (fun w' hw' => h0 w' (by simp [hw'])) (pre := pre) hp
      refine ⟨l, ?_, h2, h3⟩
      simp only [ioList, if_neg hw, h1]
      rw [if_neg hio]

end Verif.Mapped
