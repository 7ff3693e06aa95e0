import Verif.InputsLoad
import Verif.Props.HashMap

/-!
C63: the names under which the inputs of the main component are known, and the loading of their values.
-/

namespace Verif.Props.Inputs

open Verif.HashMap Verif.Inputs Verif.Props.HashMap

/-- The buses of a program: field names are identifiers, distinct within a bus. -/
def BusesOk (buses : List (List Field)) : Prop :=
  ∀ fields ∈ buses, (fields.map Field.name).Nodup ∧ ∀ f ∈ fields, Ident f.name

/-- The list of input names, for inputs that follow each other from `base` on: it is produced; it
consists of elementary names (`leaves`) and of the names of the bus inputs; all names are distinct; and
the elementary names follow each other over exactly the signals of the inputs, so every input signal
belongs to exactly one elementary name. -/
theorem C63_names {buses : List (List Field)} {fm : List (List FData)} {F : Nat}
    (hfm : fieldMap buses F = .ok fm) (hb : BusesOk buses) {ds : List Decl}
    (hd : ∀ d ∈ ds, DeclOk buses F d) (hn : (ds.map Decl.name).Nodup) {base total : Nat}
    (hc : Covers base (ds.map fun d => (d.start, d.size)) (base + total)) :
    ∃ leaves, mainInputs fm F ds = .ok (leaves ++
        (ds.filter fun d => d.bus.isSome).map fun d => ⟨d.name, d.start, d.size⟩) ∧
      ((leaves ++ (ds.filter fun d => d.bus.isSome).map fun d => ⟨d.name, d.start, d.size⟩).map
        Info.name).Nodup ∧
      Covers base (leaves.map fun i => (i.start, i.size)) (base + total) ∧
      (∀ k, base ≤ k → k < base + total →
        ∃! n : Nat, ∃ i, leaves[n]? = some i ∧ i.start ≤ k ∧ k < i.start + i.size) ∧
      ∀ i ∈ leaves, ∃ d ∈ ds, ∃ q, i.name = render d.name q := by
  obtain ⟨l, hl, hcl, hnl, hil, hbl⟩ := withQualifiers_spec hfm hb ds hd hn
  have hcov := hcl _ _ hc
  have hnot : ∀ d ∈ ds, d.bus ≠ none → ∀ i ∈ l, i.name ≠ d.name := by
    intro d hdm hbus i hi heq
    obtain ⟨d', hd', q, hq, hname, hiff, _⟩ := hil i hi
    rw [hname, ← render_nil d.name] at heq
    obtain ⟨h1, h2⟩ := render_inj (hd d' hd').1 (hd d hdm).1 hq (by simp) heq
    have hdd : d' = d := List.inj_on_of_nodup_map hn hd' hdm h1
    subst hdd
    exact hbus (hiff.mp h2)
  have hadd : addWhole l ds =
      .ok ((ds.filter fun d => d.bus.isSome).map fun d => ⟨d.name, d.start, d.size⟩) := by
    apply addWhole_spec
    · intro d hdm hbus
      exact ⟨_, lastNamed_some hnl (hbl d hdm hbus), rfl, rfl⟩
    · intro d hdm hbus
      unfold lastNamed
      rw [List.find?_eq_none]
      intro i hi
      simp only [beq_iff_eq]
      exact hnot d hdm hbus i (by simpa using hi)
  refine ⟨l, by simp only [mainInputs, hl, hadd], ?_, hcov, ?_, ?_⟩
  · rw [List.map_append, List.nodup_append]
    refine ⟨hnl, ?_, ?_⟩
    · rw [List.map_map]
      have : (Info.name ∘ fun d : Decl => (⟨d.name, d.start, d.size⟩ : Info)) = Decl.name := rfl
      rw [this]
      exact hn.sublist (List.filter_sublist.map _)
    · intro u hu v hv huv
      simp only [List.mem_map, List.mem_filter] at hu hv
      obtain ⟨i, hi, rfl⟩ := hu
      obtain ⟨_, ⟨d, ⟨hdm, hds⟩, rfl⟩, rfl⟩ := hv
      exact hnot d hdm (by intro h; rw [h] at hds; cases hds) i hi huv
  · intro k h1 h2
    obtain ⟨n, ⟨r, hr, hk⟩, hun⟩ := hcov.unique k h1 h2
    rw [List.getElem?_map, Option.map_eq_some_iff] at hr
    obtain ⟨i, hi, rfl⟩ := hr
    refine ⟨n, ⟨i, hi, hk⟩, ?_⟩
    rintro m ⟨j, hj, hk'⟩
    exact hun m ⟨_, by rw [List.getElem?_map, hj]; rfl, hk'⟩
  · intro i hi
    obtain ⟨d, hdm, q, _, hname, _⟩ := hil i hi
    exact ⟨d, hdm, q, hname⟩

theorem covers_disjoint : ∀ {s e : Nat} {l : List (Nat × Nat)}, Covers s l e →
    l.Pairwise (fun a b => ∀ k, a.1 ≤ k → k < a.1 + a.2 → ¬ (b.1 ≤ k ∧ k < b.1 + b.2)) ∧
      (∀ a ∈ l, s ≤ a.1 ∧ a.1 + a.2 ≤ e) ∧ s + (l.map Prod.snd).sum = e
  | _, _, [], h => by cases h; simp
  | s, e, r :: rs, h => by
    obtain ⟨h1, h2, h3⟩ := covers_disjoint h.2
    have hle := h.2.le
    have hr := h.1
    refine ⟨List.pairwise_cons.mpr ⟨?_, h1⟩, ?_, ?_⟩
    · intro b hb k hk1 hk2 hk3
      have := (h2 b hb).1
      omega
    · intro a ha
      rw [List.mem_cons] at ha
      rcases ha with rfl | ha
      · omega
      · have := h2 a ha; omega
    · rw [List.map_cons, List.sum_cons]; omega

/-- If every input signal is given once, by values for names of the list in any order, loading succeeds,
each signal holds the value given for it, and the calculation is started exactly once, with all
values in place. -/
theorem C63_load {V : Type} {H : String → Nat} {infos : List Info} {size fuel : Nat} {t : List Slot}
    (hs : Starts infos) (hd : (infos.map fun i => H i.name).Nodup) (hf : size ≤ fuel)
    (hg : generate H fuel infos size = .ok t) {base total : Nat} (hpos : 0 < total) (mem0 : Nat → V)
    {given : List (Info × List V)} (hgiven : ∀ r ∈ given, r.1 ∈ infos ∧ r.2.length = r.1.size)
    {cov : List (Nat × Nat)} (hperm : (given.map fun r => (r.1.start, r.1.size)).Perm cov)
    (hcov : Covers base cov (base + total)) :
    ∃ st, loadJson H t base total mem0 (given.map fun r => (r.1.name, r.2)) = .ok st ∧
      st.left = 0 ∧ st.runs = [st.mem] ∧
      (∀ r ∈ given, ∀ (k : Nat) v, r.2[k]? = some v → st.mem (r.1.start + k) = v) ∧
      (∀ k, (k < base ∨ base + total ≤ k) → st.mem k = mem0 k) := by
  obtain ⟨hdis, hin, hsum⟩ := covers_disjoint hcov
  set sel : List ((String × List V) × Slot) := given.map fun r =>
    ((r.1.name, r.2), ⟨H r.1.name, r.1.start, r.1.size⟩) with hsel
  have hdis' : (given.map fun r => (r.1.start, r.1.size)).Pairwise
      (fun a b => ∀ k, a.1 ≤ k → k < a.1 + a.2 → ¬ (b.1 ≤ k ∧ k < b.1 + b.2)) :=
    (List.Perm.pairwise_iff (fun {a b} h k h1 h2 h3 => h k h3.1 h3.2 ⟨h1, h2⟩) hperm).mpr hdis
  have hin' : ∀ r ∈ given, base ≤ r.1.start ∧ r.1.start + r.1.size ≤ base + total := fun r hr =>
    hin _ (hperm.mem_iff.mp (List.mem_map_of_mem (f := fun r : Info × List V =>
      (r.1.start, r.1.size)) hr))
  have hfits : ∀ g : List (Info × List V), (∀ r ∈ g, r ∈ given) →
      (g.map fun r => (r.1.start, r.1.size)).Pairwise
        (fun a b => ∀ k, a.1 ≤ k → k < a.1 + a.2 → ¬ (b.1 ≤ k ∧ k < b.1 + b.2)) →
      Fits H t base total (g.map fun r =>
        ((r.1.name, r.2), (⟨H r.1.name, r.1.start, r.1.size⟩ : Slot))) := by
    intro g
    induction g with
    | nil => intro _ _; trivial
    | cons r rs ih =>
      intro hsub hp
      rw [List.map_cons, List.pairwise_cons] at hp
      have hr := hsub r (by simp)
      obtain ⟨h1, h2⟩ := hin' r hr
      refine ⟨?_, (hgiven r hr).2, h1, h2, ?_, ih (fun x hx => hsub x (by simp [hx])) hp.2⟩
      · obtain ⟨pos, h3, h4⟩ := C51_found hs hd hf hg (hgiven r hr).1
        exact ⟨pos, h3, h4⟩
      · intro x hx k hk1 hk2
        rw [List.mem_map] at hx
        obtain ⟨y, hy, rfl⟩ := hx
        exact hp.1 _ (List.mem_map_of_mem (f := fun r : Info × List V => (r.1.start, r.1.size)) hy)
          k hk1 hk2
  have hF := hfits given (fun _ h => h) hdis'
  have hsum' : (sel.map fun r => r.2.size).sum = total := by
    have h1 : sel.map (fun r => r.2.size) =
        (given.map fun r => (r.1.start, r.1.size)).map Prod.snd := by
      simp [hsel, Function.comp_def]
    rw [h1, (hperm.map Prod.snd).sum_eq]
    omega
  have hne : ¬ (given.map fun r => (r.1.name, r.2)).length = 0 := by
    intro h0
    have : given = [] := by
      cases given with
      | nil => rfl
      | cons _ _ => simp at h0
    rw [hsel, this] at hsum'
    simp at hsum'
    omega
  obtain ⟨st, h1, h2, h3, h4, h5⟩ := loadItems_spec sel ⟨total, fun _ => false, mem0, []⟩ hF
    (by rw [hsum']) (by simp)
  rw [hsum'] at h2 h5
  have h2' : st.left = 0 := by rw [h2]; simp
  refine ⟨st, ?_, h2', ?_, ?_, ?_⟩
  · unfold loadJson
    simp only [hne, if_false]
    rw [← h1, hsel]
    congr 1
    simp [Function.comp_def]
  · rw [h5]; simp [h2', hpos]
  · intro r hr k v hk
    exact h3 _ (List.mem_map_of_mem (f := fun r : Info × List V =>
      (((r.1.name, r.2), ⟨H r.1.name, r.1.start, r.1.size⟩) : (String × List V) × Slot)) hr) k v hk
  · intro k hk
    apply h4
    intro r hr
    rw [hsel, List.mem_map] at hr
    obtain ⟨x, hx, rfl⟩ := hr
    have := hin' x hx
    simp only
    omega

/-- Whatever is given: if loading succeeds and there is an input signal, then the calculation is started
at most once, and it is started if and only if every input signal has been set; each set signal holds a
value given for a name whose range contains it. -/
theorem C63_load_sound {V : Type} {H : String → Nat} {t : List Slot} {base total : Nat}
    (hpos : 0 < total) {mem0 : Nat → V} {items : List (String × List V)} {st : Calc V}
    (h : loadJson H t base total mem0 items = .ok st) :
    (st.runs = [] ∨ st.runs = [st.mem]) ∧
      (st.runs = [st.mem] ↔ ∀ k, base ≤ k → k < base + total → st.isSet k = true) ∧
      (∀ k, st.isSet k = true → base ≤ k ∧ k < base + total ∧ ∃ it ∈ items, ∃ pos e,
        findC t (H it.1) = .ok pos ∧ t[pos]? = some e ∧ ∃ (j : Nat) (v : V), j < e.size ∧
          it.2[j]? = some v ∧ k = e.start + j ∧ st.mem k = v) := by
  have hinit : Inv H t base total items (⟨total, fun _ => false, mem0, []⟩ : Calc V) := by
    refine ⟨by simp, by simp, ?_, by simp⟩
    have : ¬ total = 0 := by omega
    simp [this]
  have hstart : (if items.length = 0 then
      tryRun (⟨total, fun _ => false, mem0, []⟩ : Calc V) else ⟨total, fun _ => false, mem0, []⟩) =
      ⟨total, fun _ => false, mem0, []⟩ := by
    have : ¬ total = 0 := by omega
    simp [tryRun, this]
  have inv : Inv H t base total items st := by
    unfold loadJson at h
    simp only [hstart] at h
    exact loadItems_inv items _ _ (fun _ hx => hx) hinit h
  refine ⟨?_, ?_, ?_⟩
  · rw [inv.runs]
    by_cases h0 : st.left = 0 <;> simp [h0]
  · rw [inv.runs]
    have hc := inv.count
    by_cases h0 : st.left = 0
    · simp only [h0, if_true, true_iff]
      intro k h1 h2
      have : (Finset.Ico base (base + total)).filter (fun s => st.isSet s = true) =
          Finset.Ico base (base + total) := by
        apply Finset.eq_of_subset_of_card_le (Finset.filter_subset _ _)
        rw [Nat.card_Ico]
        omega
      have hk : k ∈ (Finset.Ico base (base + total)).filter (fun s => st.isSet s = true) := by
        rw [this, Finset.mem_Ico]; exact ⟨h1, h2⟩
      exact (Finset.mem_filter.mp hk).2
    · simp only [h0, if_false]
      constructor
      · intro h; cases h
      · intro hall
        exfalso
        have : (Finset.Ico base (base + total)).filter (fun s => st.isSet s = true) =
            Finset.Ico base (base + total) := by
          apply Finset.filter_true_of_mem
          intro k hk
          rw [Finset.mem_Ico] at hk
          exact hall k hk.1 hk.2
        rw [this, Nat.card_Ico] at hc
        omega
  · intro k hk
    obtain ⟨h1, h2⟩ := inv.inside k hk
    obtain ⟨it, hit, e, ⟨pos, hf, hp⟩, r⟩ := inv.vals k hk
    exact ⟨h1, h2, it, hit, pos, e, hf, hp, r⟩

/-! A program with a bus of a point and an array of points:
`bus P { signal x; signal y; }`, `bus Q { signal z[2]; P p[2]; }`, and the inputs
`signal input a[3]; input Q q[2]; input P r;`. -/

def exBuses : List (List Field) :=
  [[⟨"x", [], none⟩, ⟨"y", [], none⟩], [⟨"z", [2], none⟩, ⟨"p", [2], some 0⟩]]

def exMap : List (List FData) :=
  [[⟨"x", [], 1, 0, none⟩, ⟨"y", [], 1, 1, none⟩], [⟨"z", [2], 1, 0, none⟩, ⟨"p", [2], 2, 2, some 0⟩]]

def exDecls : List Decl :=
  [⟨"a", [3], 1, 3, none⟩, ⟨"q", [2], 4, 12, some 1⟩, ⟨"r", [], 16, 2, some 0⟩]

example : fieldMap exBuses 2 = .ok exMap := by decide +kernel

instance (c : Char) : Decidable (IdChar c) := by unfold IdChar; infer_instance
instance (s : String) : Decidable (Ident s) := by unfold Ident; infer_instance

example : BusesOk exBuses := by unfold BusesOk; decide +kernel

example : ∀ d ∈ exDecls, DeclOk exBuses 2 d := by
  intro d hd
  simp only [exDecls, List.mem_cons, List.not_mem_nil, or_false] at hd
  rcases hd with rfl | rfl | rfl
  · exact ⟨by decide +kernel, by intro b h; cases h⟩
  · refine ⟨by decide +kernel, ?_⟩
    intro b h
    cases h
    exact ⟨by decide, [⟨"z", [2], 2, 0, none⟩, ⟨"p", [2], 4, 2, some 0⟩], 6, by decide +kernel,
      by decide⟩
  · refine ⟨by decide +kernel, ?_⟩
    intro b h
    cases h
    exact ⟨by decide, [⟨"x", [], 1, 0, none⟩, ⟨"y", [], 1, 1, none⟩], 2, by decide +kernel, by decide⟩

example : (exDecls.map Decl.name).Nodup ∧ Covers 1 (exDecls.map fun d => (d.start, d.size)) (1 + 17) :=
  ⟨by decide, ⟨rfl, rfl, rfl, rfl⟩⟩

def exInfos : List Info :=
  [⟨"a", 1, 3⟩, ⟨"q[0].z", 4, 2⟩, ⟨"q[0].p[0].x", 6, 1⟩, ⟨"q[0].p[0].y", 7, 1⟩,
   ⟨"q[0].p[1].x", 8, 1⟩, ⟨"q[0].p[1].y", 9, 1⟩, ⟨"q[1].z", 10, 2⟩, ⟨"q[1].p[0].x", 12, 1⟩,
   ⟨"q[1].p[0].y", 13, 1⟩, ⟨"q[1].p[1].x", 14, 1⟩, ⟨"q[1].p[1].y", 15, 1⟩, ⟨"r.x", 16, 1⟩,
   ⟨"r.y", 17, 1⟩, ⟨"q", 4, 12⟩, ⟨"r", 16, 2⟩]

example : mainInputs exMap 2 exDecls = .ok exInfos := by decide +kernel

/-- The hypotheses of `C63_load`: the array `a` and the bus `r` whole, in the opposite order. -/
def exGiven : List (Info × List Int) := [(⟨"r", 4, 2⟩, [8, 9]), (⟨"a", 1, 3⟩, [5, 6, 7])]

example : Starts [⟨"a", 1, 3⟩, ⟨"r.x", 4, 1⟩, ⟨"r.y", 5, 1⟩, ⟨"r", 4, 2⟩] ∧
    (([⟨"a", 1, 3⟩, ⟨"r.x", 4, 1⟩, ⟨"r.y", 5, 1⟩, ⟨"r", 4, 2⟩] : List Info).map
      fun i => hasher i.name).Nodup ∧
    (∀ r ∈ exGiven, r.1 ∈ ([⟨"a", 1, 3⟩, ⟨"r.x", 4, 1⟩, ⟨"r.y", 5, 1⟩, ⟨"r", 4, 2⟩] : List Info) ∧
      r.2.length = r.1.size) ∧
    (exGiven.map fun r => (r.1.start, r.1.size)).Perm [(1, 3), (4, 2)] ∧
    Covers 1 [(1, 3), (4, 2)] (1 + 5) := by
  refine ⟨by decide, by decide +kernel, by decide, by decide, ⟨rfl, rfl, rfl⟩⟩

/-- The same run, with the table the compiler would produce. -/
example : (match generate hasher 256 [⟨"a", 1, 3⟩, ⟨"r.x", 4, 1⟩, ⟨"r.y", 5, 1⟩, ⟨"r", 4, 2⟩] 256 with
    | .ok t =>
      match loadJson hasher t 1 5 (fun _ => (0 : Int)) [("r", [8, 9]), ("a", [5, 6, 7])] with
      | .ok st => decide ((List.range 7).map st.mem = [0, 5, 6, 7, 8, 9, 0] ∧ st.runs.length = 1)
      | .error _ => false
    | .error _ => false) = true := by decide +kernel

/-- The same signals given under two names: refused. -/
example : (match generate hasher 256 [⟨"a", 1, 3⟩, ⟨"r.x", 4, 1⟩, ⟨"r.y", 5, 1⟩, ⟨"r", 4, 2⟩] 256 with
    | .ok t =>
      match loadJson hasher t 1 5 (fun _ => (0 : Int)) [("r", [8, 9]), ("r.x", [8]), ("a", [5, 6, 7])] with
      | .ok _ => false
      | .error e => decide (e = .twice)
    | .error _ => false) = true := by decide +kernel

/-! What fails. -/

/-- A bus with an array field without elements makes the compiler divide by zero (build.rs:611). -/
theorem C63_empty_field_violated :
    buildBus [[⟨"a", [0], none⟩, ⟨"b", [], none⟩]] 1 0 =
      .ok ([⟨"a", [0], 0, 0, none⟩, ⟨"b", [], 1, 0, none⟩], 1) ∧
    fieldMap [[⟨"a", [0], none⟩, ⟨"b", [], none⟩]] 1 = .error .divByZero := by decide +kernel

/-- So does an input array of buses without elements (build.rs:391). -/
theorem C63_empty_input_violated :
    mainInputs exMap 2 [⟨"q", [0], 1, 0, some 1⟩] = .error .divByZero := by decide +kernel

/-- In a circuit whose only inputs are arrays without elements, giving these arrays makes loading
succeed with nothing left to set, but the calculation is never started (main.cpp:256-258 starts it only
if nothing is given at all). -/
theorem C63_no_run_violated :
    ∃ t, generate hasher 256 [⟨"a", 1, 0⟩] 256 = .ok t ∧
      ∃ st, loadJson hasher t 1 0 (fun _ => (0 : Int)) [("a", [])] = .ok st ∧ st.left = 0 ∧
        st.runs = [] := by
  have h : (match generate hasher 256 [⟨"a", 1, 0⟩] 256 with
      | .ok t =>
        match loadJson hasher t 1 0 (fun _ => (0 : Int)) [("a", [])] with
        | .ok st => decide (st.left = 0 ∧ st.runs.length = 0)
        | .error _ => false
      | .error _ => false) = true := by decide +kernel
  split at h
  · rename_i t ht
    refine ⟨t, ht, ?_⟩
    split at h
    · rename_i st hst
      have := of_decide_eq_true h
      exact ⟨st, hst, this.1, List.length_eq_zero_iff.mp this.2⟩
    · cases h
  · cases h

end Verif.Props.Inputs
