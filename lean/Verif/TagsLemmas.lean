import Verif.Tags
import Mathlib.Data.List.Nodup

/-! Facts about maps and tag propagation. -/

set_option linter.unusedSimpArgs false

namespace Verif.Tags

/-- Distinct keys. -/
def IsMap {A : Type} (m : Map A) : Prop := (m.map Prod.fst).Nodup

variable {A : Type}

theorem lookup_ins (k k' : String) (v : A) : ∀ m : Map A,
    (ins k v m).lookup k' = if k' = k then some v else m.lookup k'
  | [] => by
    by_cases h : k' = k
    · simp [ins, List.lookup, h]
    · have : (k' == k) = false := by simpa using h
      simp [ins, List.lookup, h, this]
  | (k1, v1) :: m => by
    have ih := lookup_ins k k' v m
    by_cases h1 : k1 = k
    · subst h1
      by_cases h : k' = k1
      · simp [ins, List.lookup, h]
      · have : (k' == k1) = false := by simpa using h
        simp [ins, List.lookup, h, this]
    · simp only [ins, h1, if_false, List.lookup_cons]
      by_cases h : k' = k1
      · subst h
        simp [h1]
      · have : (k' == k1) = false := by simpa using h
        simp only [this, ih]

theorem mem_keys_ins {k k' : String} {v : A} : ∀ {m : Map A}, k' ∈ (ins k v m).map Prod.fst →
    k' = k ∨ k' ∈ m.map Prod.fst
  | [], h => by simpa [ins] using h
  | (k1, v1) :: m, h => by
    by_cases h1 : k1 = k
    · simp only [ins, h1, if_true, List.map_cons, List.mem_cons] at h
      rcases h with h | h
      · exact .inl h
      · exact .inr (by simp [h])
    · simp only [ins, h1, if_false, List.map_cons, List.mem_cons] at h
      rcases h with h | h
      · exact .inr (by simp [h])
      · rcases mem_keys_ins h with h | h
        · exact .inl h
        · exact .inr (by simp only [List.map_cons, List.mem_cons]; exact .inr h)

theorem IsMap.ins {k : String} {v : A} : ∀ {m : Map A}, IsMap m → IsMap (ins k v m)
  | [], _ => by simp [IsMap, Tags.ins]
  | (k1, v1) :: m, h => by
    unfold IsMap at h ⊢
    simp only [List.map_cons, List.nodup_cons] at h
    by_cases h1 : k1 = k
    · simp only [Tags.ins, h1, if_true, List.map_cons, List.nodup_cons]
      rw [← h1]; exact h
    · simp only [Tags.ins, h1, if_false, List.map_cons, List.nodup_cons]
      refine ⟨fun hm => ?_, IsMap.ins h.2⟩
      rcases mem_keys_ins hm with hm | hm
      · exact h1 hm
      · exact h.1 hm

theorem lookup_none_of_not_mem {k : String} : ∀ {m : Map A}, k ∉ m.map Prod.fst → m.lookup k = none
  | [], _ => rfl
  | (k1, v1) :: m, h => by
    simp only [List.map_cons, List.mem_cons, not_or] at h
    have : (k == k1) = false := by simpa using h.1
    simp only [List.lookup_cons, this]
    exact lookup_none_of_not_mem h.2

theorem keepTags_spec {defs : TagDefs} {assigned : TagInfo} {isInit : Bool} :
    ∀ (prev acc : TagInfo), IsMap prev → IsMap acc →
    (∀ k v, prev.lookup k = some v → ∃ st, defs.lookup k = some st) →
    ∃ r, keepTags defs assigned isInit prev acc = .ok r ∧ IsMap r ∧
      ∀ k, r.lookup k = ((prev.lookup k).bind fun v => (defs.lookup k).bind fun st =>
        keepTag st isInit v (assigned.lookup k)).or (acc.lookup k)
  | [], acc, _, ha, _ => ⟨acc, rfl, ha, fun k => by simp⟩
  | (tag, value) :: rest, acc, hp, ha, hd => by
    unfold IsMap at hp
    simp only [List.map_cons, List.nodup_cons] at hp
    obtain ⟨st, hst⟩ := hd tag value (by simp [List.lookup])
    have hnone := lookup_none_of_not_mem hp.1
    have hd' : ∀ k v, rest.lookup k = some v → ∃ st, defs.lookup k = some st := by
      intro k v hk
      by_cases h : k = tag
      · subst h; rw [hnone] at hk; cases hk
      · have : (k == tag) = false := by simpa using h
        exact hd k v (by simp only [List.lookup_cons, this]; exact hk)
    cases hkt : keepTag st isInit value (assigned.lookup tag) with
    | none =>
      obtain ⟨r, hr, hm, hl⟩ := keepTags_spec (defs := defs) (assigned := assigned) (isInit := isInit) rest acc hp.2 ha hd'
      refine ⟨r, by simp only [keepTags, hst, hkt, hr], hm, fun k => ?_⟩
      by_cases h : k = tag
      · subst h
        rw [hl, hnone]
        simp [List.lookup, hst, hkt]
      · have : (k == tag) = false := by simpa using h
        simp only [List.lookup_cons, this]
        exact hl k
    | some x =>
      obtain ⟨r, hr, hm, hl⟩ := keepTags_spec (defs := defs) (assigned := assigned) (isInit := isInit) rest (ins tag x acc) hp.2 ha.ins hd'
      refine ⟨r, by simp only [keepTags, hst, hkt, hr], hm, fun k => ?_⟩
      by_cases h : k = tag
      · subst h
        rw [hl, hnone, lookup_ins]
        simp [List.lookup, hst, hkt]
      · have : (k == tag) = false := by simpa using h
        simp only [List.lookup_cons, this]
        rw [hl k, lookup_ins]
        simp [h]

theorem addTags_spec : ∀ (assigned tags : TagInfo) (defs : TagDefs), IsMap tags →
    IsMap (addTags assigned tags defs).1 ∧ ∀ k,
      (addTags assigned tags defs).1.lookup k = (tags.lookup k).or (assigned.lookup k) ∧
      (addTags assigned tags defs).2.lookup k =
        if tags.lookup k = none ∧ assigned.lookup k ≠ none then some ⟨false, false⟩
        else defs.lookup k
  | [], tags, defs, h => ⟨h, fun k => by simp [addTags]⟩
  | (tag, value) :: rest, tags, defs, h => by
    cases ht : tags.lookup tag with
    | some x =>
      obtain ⟨h1, h2⟩ := addTags_spec rest tags defs h
      refine ⟨by simpa only [addTags, ht] using h1, fun k => ?_⟩
      obtain ⟨h3, h4⟩ := h2 k
      simp only [addTags, ht]
      by_cases hk : k = tag
      · subst hk
        rw [h3, h4, ht]
        simp
      · have : (k == tag) = false := by simpa using hk
        simp only [List.lookup_cons, this]
        exact ⟨h3, h4⟩
    | none =>
      obtain ⟨h1, h2⟩ := addTags_spec rest (ins tag value tags) (ins tag ⟨false, false⟩ defs) h.ins
      refine ⟨by simpa only [addTags, ht] using h1, fun k => ?_⟩
      obtain ⟨h3, h4⟩ := h2 k
      simp only [addTags, ht]
      rw [h3, h4, lookup_ins, lookup_ins]
      by_cases hk : k = tag
      · subst hk
        simp [ht, List.lookup]
      · have : (k == tag) = false := by simpa using hk
        simp only [List.lookup_cons, this, if_neg hk]
        simp

/-- The tags of a signal before any assignment: each is declared. -/
structure Fresh (tags : TagInfo) (defs : TagDefs) : Prop where
  map : IsMap tags
  declared : ∀ k v, tags.lookup k = some v → ∃ vd, defs.lookup k = some ⟨true, vd⟩
  others : ∀ k, tags.lookup k = none → defs.lookup k = none

/-- The tags after the assignments `H`, from fresh ones. -/
structure After (tags0 : TagInfo) (defs0 : TagDefs) (H : List TagInfo) (tags : TagInfo)
    (defs : TagDefs) (isInit : Bool) : Prop where
  map : IsMap tags
  started : isInit = true ↔ H ≠ []
  valued : ∀ k v, tags0.lookup k = some v → defs0.lookup k = some ⟨true, true⟩ →
    tags.lookup k = some v ∧ defs.lookup k = some ⟨true, true⟩
  unvalued : ∀ k v, tags0.lookup k = some v → defs0.lookup k = some ⟨true, false⟩ →
    defs.lookup k = some ⟨true, false⟩ ∧ ∃ w, tags.lookup k = some w ∧ (H = [] → w = v) ∧
      (H ≠ [] → ∀ x, w = some x ↔ ∀ a ∈ H, a.lookup k = some (some x))
  undeclared : ∀ k, tags0.lookup k = none → (H = [] → tags.lookup k = none) ∧
    (H ≠ [] → ∀ v, tags.lookup k = some v ↔ ∀ a ∈ H, a.lookup k = some v) ∧
    ∀ v, tags.lookup k = some v → defs.lookup k = some ⟨false, false⟩

theorem Fresh.after {tags : TagInfo} {defs : TagDefs} (h : Fresh tags defs) :
    After tags defs [] tags defs false :=
  ⟨h.map, by simp, fun _ _ h1 h2 => ⟨h1, h2⟩, fun k v h1 h2 => ⟨h2, v, h1, fun _ => rfl, by simp⟩,
    fun k h1 => ⟨fun _ => h1, by simp, fun v hv => by rw [h1] at hv; cases hv⟩⟩

theorem After.known {tags0 : TagInfo} {defs0 : TagDefs} {H : List TagInfo} {tags : TagInfo}
    {defs : TagDefs} {b : Bool} (hf : Fresh tags0 defs0) (h : After tags0 defs0 H tags defs b) :
    ∀ k v, tags.lookup k = some v → ∃ st, defs.lookup k = some st := by
  intro k v hk
  cases h0 : tags0.lookup k with
  | none => exact ⟨_, (h.undeclared k h0).2.2 v hk⟩
  | some v0 =>
    obtain ⟨vd, hvd⟩ := hf.declared k v0 h0
    cases vd with
    | true => exact ⟨_, (h.valued k v0 h0 hvd).2⟩
    | false => exact ⟨_, (h.unvalued k v0 h0 hvd).1⟩

theorem After.step {tags0 : TagInfo} {defs0 : TagDefs} {H : List TagInfo} {tags : TagInfo}
    {defs : TagDefs} {b : Bool} (hf : Fresh tags0 defs0) (h : After tags0 defs0 H tags defs b)
    (a : TagInfo) : ∃ tags' defs', propagate tags defs a b = .ok (tags', defs') ∧
      After tags0 defs0 (H ++ [a]) tags' defs' true := by
  obtain ⟨r, hr, hrm, hrl⟩ := keepTags_spec (defs := defs) (assigned := a) (isInit := b) tags [] h.map
    (by simp [IsMap]) (h.known hf)
  simp only [List.lookup_nil, Option.or_none] at hrl
  cases b with
  | true =>
    have hne : H ≠ [] := h.started.mp rfl
    refine ⟨r, defs, by simp [propagate, hr], hrm, by simp, ?_, ?_, ?_⟩
    · intro k v h1 h2
      obtain ⟨h3, h4⟩ := h.valued k v h1 h2
      refine ⟨?_, h4⟩
      rw [hrl, h3, h4]
      simp [keepTag]
    · intro k v h1 h2
      obtain ⟨h3, w, h4, _, h5⟩ := h.unvalued k v h1 h2
      refine ⟨h3, ?_⟩
      have h5 := h5 hne
      rw [hrl, h4, h3]
      cases ha : a.lookup k with
      | none =>
        refine ⟨none, by simp [keepTag], by simp, fun _ x => ?_⟩
        constructor
        · intro h; cases h
        · intro hall
          have := hall a (by simp)
          rw [ha] at this
          cases this
      | some new =>
        by_cases hwn : w = new
        · refine ⟨w, by simp [keepTag, hwn], by simp, fun _ x => ?_⟩
          rw [h5 x]
          constructor
          · intro hall a' ha'
            rw [List.mem_append, List.mem_singleton] at ha'
            rcases ha' with ha' | rfl
            · exact hall a' ha'
            · rw [ha, ← hwn, (h5 x).mpr hall]
          · intro hall a' ha'
            exact hall a' (by simp [ha'])
        · refine ⟨none, by simp [keepTag, hwn], by simp, fun _ x => ?_⟩
          constructor
          · intro h; cases h
          · intro hall
            have hx := hall a (by simp)
            rw [ha] at hx
            have hw := (h5 x).mpr (fun a' ha' => hall a' (by simp [ha']))
            exact absurd (by rw [hw]; exact (Option.some.inj hx).symm) hwn
    · intro k h1
      obtain ⟨_, h2, h3⟩ := h.undeclared k h1
      have h2 := h2 hne
      have key : ∀ v, r.lookup k = some v ↔ ∀ a' ∈ H ++ [a], a'.lookup k = some v := by
        intro v
        rw [hrl]
        cases ht : tags.lookup k with
        | none =>
          simp only [Option.bind_none]
          constructor
          · intro h; cases h
          · intro hall
            have := (h2 v).mpr (fun a' ha' => hall a' (by simp [ha']))
            rw [ht] at this; cases this
        | some w =>
          rw [h3 w ht]
          simp only [Option.bind_some, keepTag]
          cases ha : a.lookup k with
          | none =>
            simp only [Bool.false_eq_true, if_false]
            constructor
            · intro h; cases h
            · intro hall
              have := hall a (by simp)
              rw [ha] at this; cases this
          | some new =>
            simp only [Bool.false_eq_true, if_false]
            by_cases hwn : w = new
            · simp only [hwn, if_true, Option.some.injEq]
              constructor
              · rintro rfl a' ha'
                rw [List.mem_append, List.mem_singleton] at ha'
                rcases ha' with ha' | rfl
                · exact (h2 new).mp (by rw [ht, hwn]) a' ha'
                · exact ha
              · intro hall
                have := hall a (by simp)
                rw [ha] at this
                exact Option.some.inj this
            · simp only [hwn, if_false]
              constructor
              · intro h; cases h
              · intro hall
                have h6 := hall a (by simp)
                have h7 := (h2 v).mpr (fun a' ha' => hall a' (by simp [ha']))
                rw [ha] at h6
                rw [ht] at h7
                exact absurd ((Option.some.inj h7).trans (Option.some.inj h6).symm) hwn
      refine ⟨by simp, fun _ => key, ?_⟩
      intro v hv
      have := (h2 v).mpr (fun a' ha' => (key v).mp hv a' (by simp [ha']))
      exact h3 v this
  | false =>
    have hne : H = [] := by
      by_contra hc
      exact absurd (h.started.mpr hc) (by simp)
    subst hne
    obtain ⟨h1m, h1l⟩ := addTags_spec a r defs hrm
    refine ⟨(addTags a r defs).1, (addTags a r defs).2, by simp [propagate, hr], h1m, by simp,
      ?_, ?_, ?_⟩
    · intro k v h1 h2
      obtain ⟨h3, h4⟩ := h.valued k v h1 h2
      have hrk : r.lookup k = some v := by rw [hrl, h3, h4]; simp [keepTag]
      rw [(h1l k).1, (h1l k).2, hrk, h4]
      simp
    · intro k v h1 h2
      obtain ⟨h3, w, h4, _⟩ := h.unvalued k v h1 h2
      cases ha : a.lookup k with
      | none =>
        have hrk : r.lookup k = some none := by rw [hrl, h4, h3, ha]; simp [keepTag]
        rw [(h1l k).1, (h1l k).2, hrk, h3]
        refine ⟨by simp, none, by simp, by simp, fun _ x => ?_⟩
        simp [ha]
      | some new =>
        have hrk : r.lookup k = some new := by rw [hrl, h4, h3, ha]; simp [keepTag]
        rw [(h1l k).1, (h1l k).2, hrk, h3]
        refine ⟨by simp, new, by simp, by simp, fun _ x => ?_⟩
        simp [ha]
    · intro k h1
      obtain ⟨h2, _, _⟩ := h.undeclared k h1
      have hrk : r.lookup k = none := by rw [hrl, h2 rfl]; simp
      rw [(h1l k).1, (h1l k).2, hrk]
      refine ⟨by simp, fun _ v => by simp, fun v hv => ?_⟩
      simp only [Option.none_or] at hv
      simp [hv]

theorem computePropagated_spec {defs : TagDefs} {remaining : Nat} : ∀ (tags acc : TagInfo), IsMap tags →
    (∀ k v, tags.lookup k = some v → ∃ st, defs.lookup k = some st) →
    ∃ r, computePropagated defs remaining tags acc = .ok r ∧
      ∀ k, r.lookup k = ((tags.lookup k).bind fun v => (defs.lookup k).bind fun st =>
        propagatedOf st remaining v).or (acc.lookup k)
  | [], acc, _, _ => ⟨acc, rfl, fun k => by simp⟩
  | (tag, value) :: rest, acc, hp, hd => by
    unfold IsMap at hp
    simp only [List.map_cons, List.nodup_cons] at hp
    obtain ⟨st, hst⟩ := hd tag value (by simp [List.lookup])
    have hnone := lookup_none_of_not_mem hp.1
    have hd' : ∀ k v, rest.lookup k = some v → ∃ st, defs.lookup k = some st := by
      intro k v hk
      by_cases h : k = tag
      · subst h; rw [hnone] at hk; cases hk
      · have : (k == tag) = false := by simpa using h
        exact hd k v (by simp only [List.lookup_cons, this]; exact hk)
    cases hkt : propagatedOf st remaining value with
    | none =>
      obtain ⟨r, hr, hl⟩ := computePropagated_spec (defs := defs) (remaining := remaining) rest acc hp.2 hd'
      refine ⟨r, by simp only [computePropagated, hst, hkt, hr], fun k => ?_⟩
      by_cases h : k = tag
      · subst h
        rw [hl, hnone]
        simp [List.lookup, hst, hkt]
      · have : (k == tag) = false := by simpa using h
        simp only [List.lookup_cons, this]
        exact hl k
    | some x =>
      obtain ⟨r, hr, hl⟩ := computePropagated_spec (defs := defs) (remaining := remaining) rest (ins tag x acc) hp.2 hd'
      refine ⟨r, by simp only [computePropagated, hst, hkt, hr], fun k => ?_⟩
      by_cases h : k = tag
      · subst h
        rw [hl, hnone, lookup_ins]
        simp [List.lookup, hst, hkt]
      · have : (k == tag) = false := by simpa using h
        simp only [List.lookup_cons, this]
        rw [hl k, lookup_ins]
        simp [h]

/-- All assignments succeed, and the tags are as `After` says. -/
theorem assignAll_spec {tags0 : TagInfo} {defs0 : TagDefs} (hf : Fresh tags0 defs0) :
    ∀ (hist : List (TagInfo × Nat)) (H : List TagInfo) (s : SigTags),
    After tags0 defs0 H s.tags s.defs s.isInit →
    ∃ s', assignAll hist s = .ok s' ∧
      After tags0 defs0 (H ++ hist.map Prod.fst) s'.tags s'.defs s'.isInit ∧
      s'.remaining = s.remaining - (hist.map Prod.snd).sum
  | [], H, s, h => ⟨s, rfl, by simpa using h, by simp⟩
  | (a, n) :: rest, H, s, h => by
    obtain ⟨tags', defs', hp, haf⟩ := h.step hf a
    set s1 : SigTags := ⟨tags', defs', if s.remaining ≥ n then s.remaining - n else 0, true⟩ with hs1
    obtain ⟨s', h1, h2, h3⟩ := assignAll_spec hf rest (H ++ [a]) s1 haf
    refine ⟨s', ?_, by simpa using h2, ?_⟩
    · simp only [assignAll, assignSignal, hp]
      exact h1
    · rw [h3]
      simp only [hs1, List.map_cons, List.sum_cons]
      split <;> omega

/-! Buses -/

def BusTags.tags : BusTags → TagInfo
  | .mk t _ _ _ _ _ => t

def BusTags.defs : BusTags → TagDefs
  | .mk _ d _ _ _ _ => d

def BusTags.isInit : BusTags → Bool
  | .mk _ _ _ _ i _ => i

def BusTags.fields : BusTags → List (String × BusTags)
  | .mk _ _ _ _ _ f => f

/-- The field of a bus under a path of names. -/
def BusTags.at : List String → BusTags → Option BusTags
  | [], b => some b
  | f :: p, b => (b.fields.lookup f).bind (BusTags.at p)

/-- The tags of a value under a path of names. -/
def TagWire.at : List String → TagWire → TagWire
  | [], w => w
  | f :: p, w => TagWire.at p (fieldWire f w)

theorem propFields_lookup {w : TagWire} {n : Nat} {f : String} {c : BusTags} :
    ∀ {fs fs' : List (String × BusTags)}, propFields fs w n = .ok fs' → fs.lookup f = some c →
      ∃ m c', propBus c (fieldWire f w) m = .ok c' ∧ fs'.lookup f = some c'
  | [], _, _, h2 => by cases h2
  | (g, .mk tags defs remaining size isInit fields) :: rest, fs', h1, h2 => by
    simp only [propFields] at h1
    cases hb : propBus (.mk tags defs remaining size isInit fields) (fieldWire g w) (size * n) with
    | error e => rw [hb] at h1; cases h1
    | ok b' =>
      rw [hb] at h1
      cases hr : propFields rest w n with
      | error e => rw [hr] at h1; cases h1
      | ok rest' =>
        rw [hr] at h1
        cases h1
        by_cases hfg : f = g
        · subst hfg
          simp only [List.lookup_cons, beq_self_eq_true, Option.some.injEq] at h2 ⊢
          subst h2
          exact ⟨_, b', hb, rfl⟩
        · have : (f == g) = false := by simpa using hfg
          simp only [List.lookup_cons, this] at h2 ⊢
          exact propFields_lookup hr h2

theorem propBus_at : ∀ (path : List String) {b b' c : BusTags} {w : TagWire} {n : Nat},
    propBus b w n = .ok b' → b.at path = some c →
    ∃ c', b'.at path = some c' ∧
      propagate c.tags c.defs (w.at path).tags c.isInit = .ok (c'.tags, c'.defs) ∧ c'.isInit = true
  | [], .mk tags defs remaining size isInit fields, b', c, w, n, h1, h2 => by
    simp only [BusTags.at, Option.some.injEq] at h2
    subst h2
    simp only [propBus] at h1
    cases hp : propagate tags defs w.tags isInit with
    | error e => rw [hp] at h1; cases h1
    | ok r =>
      rw [hp] at h1
      simp only at h1
      split at h1
      · cases h1
      · split at h1
        · cases h1
        · cases h1
          exact ⟨_, rfl, hp, rfl⟩
  | f :: path, .mk tags defs remaining size isInit fields, b', c, w, n, h1, h2 => by
    simp only [BusTags.at, BusTags.fields] at h2
    cases hl : fields.lookup f with
    | none => rw [hl] at h2; cases h2
    | some d =>
      rw [hl] at h2
      simp only [Option.bind_some] at h2
      simp only [propBus] at h1
      cases hp : propagate tags defs w.tags isInit with
      | error e => rw [hp] at h1; cases h1
      | ok r =>
        rw [hp] at h1
        simp only at h1
        split at h1
        · cases h1
        · cases hf : propFields fields w n with
          | error e => rw [hf] at h1; cases h1
          | ok fs' =>
            rw [hf] at h1
            cases h1
            obtain ⟨m, d', hd, hl'⟩ := propFields_lookup hf hl
            obtain ⟨c', h3, h4⟩ := propBus_at path hd h2
            exact ⟨c', by simp only [BusTags.at, BusTags.fields, hl', Option.bind_some]; exact h3, h4⟩

theorem propBusAll_at {tags0 : TagInfo} {defs0 : TagDefs} (hf : Fresh tags0 defs0) (path : List String) :
    ∀ (hist : List (TagWire × Nat)) (H : List TagInfo) (b b' c : BusTags),
    propBusAll hist b = .ok b' → b.at path = some c →
    After tags0 defs0 H c.tags c.defs c.isInit →
    ∃ c', b'.at path = some c' ∧
      After tags0 defs0 (H ++ hist.map fun w => (w.1.at path).tags) c'.tags c'.defs c'.isInit
  | [], H, b, b', c, h1, h2, h3 => by
    cases h1
    exact ⟨c, h2, by simpa using h3⟩
  | (w, n) :: rest, H, b, b', c, h1, h2, h3 => by
    simp only [propBusAll] at h1
    cases hp : propBus b w n with
    | error e => rw [hp] at h1; cases h1
    | ok b1 =>
      rw [hp] at h1
      obtain ⟨c1, h4, h5, h6⟩ := propBus_at path hp h2
      obtain ⟨t', d', h7, h8⟩ := h3.step hf (w.at path).tags
      rw [h5] at h7
      cases h7
      rw [← h6] at h8
      obtain ⟨c', h9, h10⟩ := propBusAll_at hf path rest _ b1 b' c1 h1 h4 h8
      exact ⟨c', h9, by simpa using h10⟩

/-- Every part of the bus has been assigned at most as the history `hist` says, starting from declared
tags, and has room for `n` more elements. -/
inductive Room : Nat → BusTags → Prop
  | mk {n : Nat} {tags tags0 : TagInfo} {defs defs0 : TagDefs} {remaining size : Nat} {isInit : Bool}
      {fields : List (String × BusTags)} {H : List TagInfo} :
      Fresh tags0 defs0 → After tags0 defs0 H tags defs isInit → n ≤ remaining →
      (∀ f ∈ fields, Room (match f.2 with | .mk _ _ _ s _ _ => s * n) f.2) →
      Room n (.mk tags defs remaining size isInit fields)

/-- The size of an element, in the enclosing element. -/
def BusTags.size : BusTags → Nat
  | .mk _ _ _ s _ _ => s

theorem Room.step {N : Nat} {b : BusTags} (h : Room N b) : ∀ (w : TagWire) (n : Nat), n ≤ N →
    ∃ b', propBus b w n = .ok b' ∧ Room (N - n) b' ∧ b'.size = b.size := by
  induction h with
  | @mk N tags tags0 defs defs0 remaining size isInit fields H hf ha hr _ ih =>
    intro w n hn
    obtain ⟨t', d', hp, ha'⟩ := ha.step hf w.tags
    have hfields : ∀ fs : List (String × BusTags), (∀ f ∈ fs, f ∈ fields) →
        ∃ fs', propFields fs w n = .ok fs' ∧
          ∀ f ∈ fs', Room (match f.2 with | .mk _ _ _ s _ _ => s * (N - n)) f.2 := by
      intro fs
      induction fs with
      | nil => intro _; exact ⟨[], rfl, by simp⟩
      | cons x rest ihr =>
        intro hsub
        obtain ⟨g, bg⟩ := x
        obtain ⟨tg, dg, rg, sg, ig, fg⟩ := bg
        obtain ⟨rest', h1, h2⟩ := ihr (fun f hf => hsub f (by simp [hf]))
        obtain ⟨b', h3, h4, h5⟩ := ih (g, .mk tg dg rg sg ig fg) (hsub _ (by simp)) (fieldWire g w)
          (sg * n) (Nat.mul_le_mul_left _ hn)
        refine ⟨(g, b') :: rest', by simp only [propFields, h3, h1], ?_⟩
        intro f hf
        rw [List.mem_cons] at hf
        rcases hf with rfl | hf
        · obtain ⟨t1, d1, r1, s1, i1, f1⟩ := b'
          simp only [BusTags.size] at h5
          subst h5
          simp only [Nat.mul_sub] at h4 ⊢
          exact h4
        · exact h2 f hf
    obtain ⟨fs', h1, h2⟩ := hfields fields (fun _ h => h)
    refine ⟨.mk t' d' (remaining - n) size true fs', ?_, ?_, rfl⟩
    · have : ¬ remaining < n := by omega
      simp only [propBus, hp, this, if_false, h1]
    · exact Room.mk hf ha' (by omega) h2

theorem Room.all : ∀ (hist : List (TagWire × Nat)) (N : Nat) (b : BusTags), Room N b →
    (hist.map Prod.snd).sum ≤ N → ∃ b', propBusAll hist b = .ok b'
  | [], _, b, _, _ => ⟨b, rfl⟩
  | (w, n) :: rest, N, b, h, hs => by
    simp only [List.map_cons, List.sum_cons] at hs
    obtain ⟨b1, h1, h2, _⟩ := h.step w n (by omega)
    obtain ⟨b', h3⟩ := Room.all rest (N - n) b1 h2 (by omega)
    exact ⟨b', by simp only [propBusAll, h1, h3]⟩

/-! Joining -/

theorem joinTags_lookup {new : TagInfo} (k : String) : ∀ (tags acc : TagInfo), IsMap tags →
    (joinTags new tags acc).lookup k =
      (if tags.lookup k = new.lookup k then tags.lookup k else none).or (acc.lookup k)
  | [], acc, _ => by
    simp only [joinTags]
    by_cases hc : ([] : TagInfo).lookup k = new.lookup k
    · rw [if_pos hc]; rfl
    · rw [if_neg hc]; rfl
  | (tag, value) :: rest, acc, h => by
    unfold IsMap at h
    simp only [List.map_cons, List.nodup_cons] at h
    have hnone := lookup_none_of_not_mem h.1
    have ih := fun a => joinTags_lookup (new := new) k rest a h.2
    by_cases hk : k = tag
    · subst hk
      simp only [joinTags, List.lookup_cons, beq_self_eq_true]
      cases hn : new.lookup k with
      | none => simp [ih, hnone]
      | some v =>
        simp only
        by_cases hv : value = v
        · simp [hv, ih, hnone, hn, lookup_ins]
        · simp [hv, ih, hnone, hn]
    · have : (k == tag) = false := by simpa using hk
      simp only [joinTags, List.lookup_cons, this]
      cases hn : new.lookup tag with
      | none => simp [ih]
      | some v =>
        simp only
        by_cases hv : value = v
        · simp [hv, ih, lookup_ins, hk]
        · simp [hv, ih]

theorem joinTags_spec {new tags : TagInfo} (h : IsMap tags) (k : String) (v : Option Int) :
    (joinTags new tags []).lookup k = some v ↔ tags.lookup k = some v ∧ new.lookup k = some v := by
  rw [joinTags_lookup k tags [] h]
  simp only [List.lookup_nil, Option.or_none]
  by_cases hc : tags.lookup k = new.lookup k
  · rw [if_pos hc, hc]; simp
  · rw [if_neg hc]
    constructor
    · intro h; cases h
    · intro h; exact absurd (h.1.trans h.2.symm) hc

theorem IsMap.joinTags {new : TagInfo} : ∀ {tags acc : TagInfo}, IsMap acc →
    IsMap (joinTags new tags acc)
  | [], _, h => h
  | (tag, value) :: rest, acc, h => by
    simp only [Tags.joinTags]
    split
    · split
      · exact IsMap.joinTags h.ins
      · exact IsMap.joinTags h
    · exact IsMap.joinTags h

/-- Distinct keys in all parts. -/
def TagWire.Maps (w : TagWire) : Prop := ∀ path, IsMap (w.at path).tags

theorem at_empty : ∀ path, TagWire.at path (.mk [] none) = .mk [] none
  | [] => rfl
  | f :: p => by simp only [TagWire.at, fieldWire]; exact at_empty p

theorem joinFields_lookup {aux : List (String × TagWire)} {f : String} :
    ∀ {fs r : List (String × TagWire)}, joinFields fs aux = .ok r →
      match fs.lookup f with
      | none => r.lookup f = none
      | some w => ∃ w' c, aux.lookup f = some w' ∧ joinWire w w' = .ok c ∧ r.lookup f = some c
  | [], r, h => by
    simp only [joinFields] at h
    cases h
    rfl
  | (g, w) :: rest, r, h => by
    simp only [joinFields] at h
    cases ha : aux.lookup g with
    | none => rw [ha] at h; cases h
    | some w' =>
      rw [ha] at h
      simp only at h
      cases hj : joinWire w w' with
      | error e => rw [hj] at h; cases h
      | ok c =>
        rw [hj] at h
        simp only at h
        cases hr : joinFields rest aux with
        | error e => rw [hr] at h; cases h
        | ok rs =>
          rw [hr] at h
          cases h
          by_cases hfg : f = g
          · subst hfg
            simp only [List.lookup_cons, beq_self_eq_true]
            exact ⟨w', c, ha, hj, rfl⟩
          · have : (f == g) = false := by simpa using hfg
            simp only [List.lookup_cons, this]
            exact joinFields_lookup hr

theorem joinWire_at : ∀ (path : List String) {a b c : TagWire}, a.Maps → joinWire a b = .ok c →
    IsMap (c.at path).tags ∧ ∀ k v, (c.at path).tags.lookup k = some v ↔
      (a.at path).tags.lookup k = some v ∧ (b.at path).tags.lookup k = some v
  | [], .mk tags none, .mk nt nf, c, hm, h => by
    simp only [joinWire] at h
    cases h
    exact ⟨IsMap.joinTags (by simp [IsMap]), joinTags_spec (hm [])⟩
  | [], .mk tags (some []), .mk nt nf, c, hm, h => by
    simp only [joinWire] at h
    cases h
    exact ⟨IsMap.joinTags (by simp [IsMap]), joinTags_spec (hm [])⟩
  | [], .mk tags (some (f :: fs)), .mk nt nf, c, hm, h => by
    cases nf with
    | none => simp only [joinWire] at h; cases h
    | some aux =>
      simp only [joinWire] at h
      split at h
      · cases h
      · cases h
        exact ⟨IsMap.joinTags (by simp [IsMap]), joinTags_spec (hm [])⟩
  | g :: path, .mk tags none, .mk nt nf, c, hm, h => by
    simp only [joinWire] at h
    cases h
    simp only [TagWire.at, fieldWire, at_empty]
    simp [TagWire.tags, IsMap]
  | g :: path, .mk tags (some []), .mk nt nf, c, hm, h => by
    simp only [joinWire] at h
    cases h
    simp only [TagWire.at, fieldWire, at_empty, List.lookup_nil]
    simp [TagWire.tags, IsMap]
  | g :: path, .mk tags (some (f :: fs)), .mk nt nf, c, hm, h => by
    cases nf with
    | none => simp only [joinWire] at h; cases h
    | some aux =>
      simp only [joinWire] at h
      cases hj : joinFields (f :: fs) aux with
      | error e => rw [hj] at h; cases h
      | ok r =>
        rw [hj] at h
        cases h
        have hl := joinFields_lookup (f := g) hj
        cases hg : (f :: fs).lookup g with
        | none =>
          rw [hg] at hl
          simp only at hl
          simp only [TagWire.at, fieldWire, hg, hl, at_empty]
          simp [TagWire.tags, IsMap]
        | some w =>
          rw [hg] at hl
          simp only at hl
          obtain ⟨w', c', h1, h2, h3⟩ := hl
          simp only [TagWire.at, fieldWire, hg, h1, h3]
          refine joinWire_at path (fun p => ?_) h2
          have := hm (g :: p)
          simpa only [TagWire.at, fieldWire, hg] using this

/-- The tag with its value is there. -/
def TagWire.Has (path : List String) (k : String) (v : Option Int) (x : Option TagWire) : Prop :=
  ∃ w, x = some w ∧ (w.at path).tags.lookup k = some v

theorem inlineTags_at (path : List String) (k : String) (v : Option Int) :
    ∀ (xs : List (Option TagWire)) {t r : Option TagWire}, (∀ w, t = some w → w.Maps) →
    inlineTags false t xs = .ok r →
    (TagWire.Has path k v r ↔ TagWire.Has path k v t ∧ ∀ x ∈ xs, TagWire.Has path k v x)
  | [], t, r, _, h => by
    cases h
    simp
  | none :: rest, t, r, _, h => by
    simp only [inlineTags, inlineStep] at h
    rw [inlineTags_at path k v rest (by simp) h]
    simp [TagWire.Has]
  | some w :: rest, none, r, _, h => by
    simp only [inlineTags, inlineStep, Bool.false_eq_true, if_false] at h
    rw [inlineTags_at path k v rest (by simp) h]
    simp [TagWire.Has]
  | some w :: rest, some a, r, hm, h => by
    simp only [inlineTags, inlineStep, Bool.false_eq_true, if_false] at h
    cases hj : joinWire a w with
    | error e => rw [hj] at h; cases h
    | ok d =>
      rw [hj] at h
      simp only at h
      have hma := hm a rfl
      rw [inlineTags_at path k v rest (fun w' hw' p => by cases hw'; exact (joinWire_at p hma hj).1) h]
      simp only [TagWire.Has, List.forall_mem_cons, Option.some.injEq, exists_eq_left',
        (joinWire_at path hma hj).2, and_assoc]

end Verif.Tags
