import Verif.VqChan.Spec
import Mathlib.Tactic.Tauto

namespace Verif.VqChan

theorem register_cases (max : Nat) (t : Table) (id : Int) (c : Channel) :
    ((register max t id c).2 = .ok ↔ 0 ≤ id ∧ id ≤ max ∧ c.buffer ≠ 0 ∧ c.notify ≠ 0) ∧
    ((register max t id c).2 = .refused ↔ (max : Int) < id ∨ c.buffer = 0 ∨ c.notify = 0) ∧
    (register max t id c).1 = if (register max t id c).2 = .ok then (fun i => if i = id.toNat then c else t i) else t := by
  unfold register
  by_cases h1 : id > max
  · rw [if_pos h1]
    exact ⟨⟨fun h => (by cases h), fun h => absurd h.2.1 (by omega)⟩, ⟨fun _ => .inl h1, fun _ => rfl⟩, rfl⟩
  · rw [if_neg h1]
    by_cases h2 : c.buffer = 0 ∨ c.notify = 0
    · rw [if_pos h2]
      exact ⟨⟨fun h => (by cases h), fun h => (by rcases h2 with h2 | h2 <;> simp_all)⟩, ⟨fun _ => .inr h2, fun _ => rfl⟩, rfl⟩
    · rw [if_neg h2]
      by_cases h3 : id < 0
      · rw [if_pos h3]
        exact ⟨⟨fun h => (by cases h), fun h => absurd h.1 (by omega)⟩, ⟨fun h => (by cases h), fun h => (by omega)⟩, rfl⟩
      · rw [if_neg h3]
        exact ⟨⟨fun _ => ⟨by omega, by omega, by tauto, by tauto⟩, fun _ => rfl⟩, ⟨fun h => (by cases h), fun h => (by omega)⟩, rfl⟩

/-- C59: a registration is accepted exactly if its id is in range and it has a buffer and a function for
notifying. -/
theorem registered_iff (max : Nat) (t : Table) (id : Int) (c : Channel) :
    (register max t id c).2 = .ok ↔ 0 ≤ id ∧ id ≤ max ∧ c.buffer ≠ 0 ∧ c.notify ≠ 0 := (register_cases max t id c).1

/-- C59: too large an id and a missing buffer or function are refused. -/
theorem refused_iff (max : Nat) (t : Table) (id : Int) (c : Channel) :
    (register max t id c).2 = .refused ↔ (max : Int) < id ∨ c.buffer = 0 ∨ c.notify = 0 := (register_cases max t id c).2.1

/-- The table agrees with what has been registered. -/
def Agrees (max : Nat) (t : Table) (es : List Event) : Prop :=
  ∀ i, t i = (current i es).getD zero ∧ ∀ c, current i es = some c → i ≤ max ∧ c.buffer ≠ 0 ∧ c.notify ≠ 0

theorem run_agrees (max : Nat) : ∀ (cs : List (Int × Channel)) (t : Table) (es : List Event),
    Agrees max t es → Agrees max (run max t es cs).1 (run max t es cs).2 := by
  intro cs
  induction cs with
  | nil => intro t es h; exact h
  | cons p cs ih =>
    obtain ⟨id, c⟩ := p
    intro t es h
    refine ih _ _ ?_
    obtain ⟨h1, _, h3⟩ := register_cases max t id c
    intro i
    by_cases hok : (register max t id c).2 = .ok
    · obtain ⟨a1, a2, a3, a4⟩ := h1.mp hok
      rw [h3, if_pos hok]
      by_cases hi : i = id.toNat
      · have hid : id = (i : Int) := by omega
        simp only [current]
        rw [if_pos hi, if_pos ⟨hok, hid⟩]
        refine ⟨rfl, fun c' hc => ?_⟩
        cases hc
        exact ⟨by omega, a3, a4⟩
      · have hid : ¬ (id = (i : Int)) := by omega
        simp only [current]
        rw [if_neg hi, if_neg (fun hh => hid hh.2)]
        exact h i
    · rw [h3, if_neg hok]
      simp only [current]
      rw [if_neg (fun hh => hok hh.1)]
      exact h i

theorem start_agrees (max : Nat) : Agrees max (fun _ => zero) [] := fun _ => ⟨rfl, fun _ h => (by cases h)⟩

/-- C59: after every history, looking up an id and a role gives the channel last registered with them and
nothing else. -/
theorem getChannel_iff (max : Nat) (cs : List (Int × Channel)) (role : Role) (id : Nat) (c : Channel) :
    getChannel max (run max (fun _ => zero) [] cs).1 role id = some c ↔
      current id (run max (fun _ => zero) [] cs).2 = some c ∧ c.role = role ∧ role ≠ .unassigned := by
  have h := run_agrees max cs _ [] (start_agrees max)
  generalize (run max (fun _ => zero) [] cs).1 = t at h ⊢
  generalize (run max (fun _ => zero) [] cs).2 = es at h ⊢
  obtain ⟨h1, h2⟩ := h id
  unfold getChannel
  rw [h1]
  cases hc : current id es with
  | none => simp [zero]
  | some d =>
    obtain ⟨b1, b2, b3⟩ := h2 d hc
    simp only [Option.getD_some]
    rw [if_neg (by omega)]
    by_cases hr : d.role = .unassigned
    · rw [if_pos hr]
      refine ⟨fun h => (by cases h), ?_⟩
      rintro ⟨h, h', h''⟩
      cases h
      exact absurd (h'.symm.trans hr) h''
    · rw [if_neg hr, if_neg b2]
      by_cases hq : d.role ≠ role
      · rw [if_pos hq]
        refine ⟨fun h => (by cases h), ?_⟩
        rintro ⟨h, h', _⟩
        cases h
        exact absurd h' hq
      · rw [if_neg hq]
        simp only [ne_eq, Decidable.not_not] at hq
        constructor
        · intro h; cases h; exact ⟨rfl, hq, hq ▸ hr⟩
        · rintro ⟨h, _⟩; rw [h]

theorem strncmpEq_iff : ∀ (n : Nat) (a b : List Char), strncmpEq n a b = true ↔ a.take n = b.take n := by
  intro n
  induction n with
  | zero => intro a b; simp [strncmpEq]
  | succ n ih =>
    intro a b
    cases a <;> cases b <;> simp [strncmpEq, ih]

theorem search_spec (width : Nat) (t : Table) (name : List Char) : ∀ (todo i : Nat),
    (∀ k, search width t name todo i = .id k ↔ i ≤ k ∧ k < i + todo ∧
      (∃ n, (t k).name = some n ∧ name.take width = n.take width) ∧ ∀ j, i ≤ j → j < k → ∃ n, (t j).name = some n ∧ name.take width ≠ n.take width) ∧
    (search width t name todo i = .missing ↔ ∀ j, i ≤ j → j < i + todo → ∃ n, (t j).name = some n ∧ name.take width ≠ n.take width) := by
  intro todo
  induction todo with
  | zero =>
    intro i
    rw [search]
    exact ⟨fun k => ⟨fun h => (by cases h), fun h => (by omega)⟩, ⟨fun _ j h1 h2 => (by omega), fun _ => rfl⟩⟩
  | succ todo ih =>
    intro i
    obtain ⟨ih1, ih2⟩ := ih (i + 1)
    unfold search
    cases hn : (t i).name with
    | none =>
      simp only
      refine ⟨fun k => ⟨fun h => (by cases h), ?_⟩, ⟨fun h => (by cases h), fun h => ?_⟩⟩
      · rintro ⟨h1, _, ⟨n, h3, _⟩, h4⟩
        rcases Nat.eq_or_lt_of_le h1 with rfl | h1
        · rw [hn] at h3; cases h3
        · obtain ⟨n', h5, _⟩ := h4 i (Nat.le_refl _) h1
          rw [hn] at h5; cases h5
      · obtain ⟨n', h5, _⟩ := h i (Nat.le_refl _) (by omega)
        rw [hn] at h5; cases h5
    | some n =>
      simp only
      by_cases hc : strncmpEq width name n = true
      · have hc' := (strncmpEq_iff _ _ _).mp hc
        rw [if_pos hc]
        refine ⟨fun k => ⟨?_, ?_⟩, ⟨fun h => (by cases h), fun h => ?_⟩⟩
        · intro h
          cases h
          exact ⟨Nat.le_refl _, by omega, ⟨n, hn, hc'⟩, fun j h1 h2 => (by omega)⟩
        · rintro ⟨h1, h2, _, h4⟩
          rcases Nat.eq_or_lt_of_le h1 with rfl | h1
          · rfl
          · obtain ⟨n', h5, h6⟩ := h4 i (Nat.le_refl _) h1
            rw [hn] at h5; cases h5
            exact absurd hc' h6
        · obtain ⟨n', h5, h6⟩ := h i (Nat.le_refl _) (by omega)
          rw [hn] at h5; cases h5
          exact absurd hc' h6
      · have hc' : name.take width ≠ n.take width := fun h => hc ((strncmpEq_iff _ _ _).mpr h)
        rw [if_neg hc]
        refine ⟨fun k => ?_, ?_⟩
        · rw [ih1]
          constructor
          · rintro ⟨h1, h2, h3, h4⟩
            refine ⟨by omega, by omega, h3, fun j h5 h6 => ?_⟩
            rcases Nat.eq_or_lt_of_le h5 with rfl | h5
            · exact ⟨n, hn, hc'⟩
            · exact h4 j h5 h6
          · rintro ⟨h1, h2, h3, h4⟩
            rcases Nat.eq_or_lt_of_le h1 with rfl | h1
            · obtain ⟨n', h5, h6⟩ := h3
              rw [hn] at h5; cases h5
              exact absurd h6 hc'
            · exact ⟨h1, by omega, h3, fun j h5 h6 => h4 j (by omega) h6⟩
        · rw [ih2]
          constructor
          · intro h j h5 h6
            rcases Nat.eq_or_lt_of_le h5 with rfl | h5
            · exact ⟨n, hn, hc'⟩
            · exact h j h5 (by omega)
          · intro h j h5 h6
            exact h j (by omega) (by omega)

/-- C59, exactly what looking up a name does after any history: it gives the first id below the largest one with
a name that agrees in the first characters, if all ids before it are registered; it reports that there is none
only if all of these ids are registered; and otherwise it reads through a null pointer. -/
theorem getId_exact (max width : Nat) (cs : List (Int × Channel)) (name : List Char) :
    let r := run max (fun _ => zero) [] cs
    (∀ i, getId max width r.1 name = .id i ↔ i < max ∧ (∃ n, nameOf i r.2 = some n ∧ name.take width = n.take width) ∧
      ∀ j < i, ∃ n, nameOf j r.2 = some n ∧ name.take width ≠ n.take width) ∧
    (getId max width r.1 name = .missing ↔ ∀ i < max, ∃ n, nameOf i r.2 = some n ∧ name.take width ≠ n.take width) := by
  intro r
  have h : Agrees max r.1 r.2 := run_agrees max cs _ [] (start_agrees max)
  have hname : ∀ i, (r.1 i).name = nameOf i r.2 := by
    intro i
    rw [(h i).1, nameOf]
    cases current i r.2 <;> rfl
  obtain ⟨h1, h2⟩ := search_spec width r.1 name max 0
  refine ⟨fun i => ?_, ?_⟩
  · rw [getId, h1]
    simp only [hname, Nat.zero_le, true_and, Nat.zero_add, forall_const]
  · rw [getId, h2]
    simp only [hname, Nat.zero_le, Nat.zero_add, forall_const]

/-- C59, the part that holds: if the ids in use start at zero without gaps and stay below the largest one, and
names are not longer than what is compared, then a name that is registered is found, and what is found is
registered under the name. That a name is not registered is reported only when all ids are in use. -/
theorem names_found_partial (max width : Nat) (cs : List (Int × Channel)) (k : Nat) (hk : k ≤ max)
    (hs : ∀ i, i < k → ∃ n, nameOf i (run max (fun _ => zero) [] cs).2 = some n)
    (hw : ∀ i n, nameOf i (run max (fun _ => zero) [] cs).2 = some n → n.length ≤ width ∧ i < k)
    (name : List Char) (hn : name.length ≤ width) :
    let r := run max (fun _ => zero) [] cs
    (∀ i, getId max width r.1 name = .id i → nameOf i r.2 = some name) ∧
    ((∃ i, nameOf i r.2 = some name) → ∃ i, getId max width r.1 name = .id i) := by
  intro r
  obtain ⟨h1, h2⟩ := getId_exact max width cs name
  constructor
  · intro i hi
    obtain ⟨_, ⟨n, h3, h4⟩, _⟩ := (h1 i).mp hi
    obtain ⟨h5, _⟩ := hw i n h3
    rw [List.take_of_length_le hn, List.take_of_length_le h5] at h4
    rw [h4]; exact h3
  · rintro ⟨i, hi⟩
    -- the first id with this name
    have hfirst : ∀ m, (∃ i ≤ m, nameOf i r.2 = some name) → ∃ i, nameOf i r.2 = some name ∧ ∀ j < i, nameOf j r.2 ≠ some name := by
      intro m
      induction m with
      | zero =>
        rintro ⟨i, hm, hi⟩
        exact ⟨i, hi, fun j hj => (by omega)⟩
      | succ m ih =>
        rintro ⟨i, hm, hi⟩
        by_cases hex : ∃ i ≤ m, nameOf i r.2 = some name
        · exact ih hex
        · refine ⟨i, hi, fun j hj he => hex ⟨j, by omega, he⟩⟩
    obtain ⟨i, hi, hmin⟩ := hfirst i ⟨i, Nat.le_refl _, hi⟩
    have hik := (hw i name hi).2
    refine ⟨i, (h1 i).mpr ⟨by omega, ⟨name, hi, rfl⟩, fun j hj => ?_⟩⟩
    obtain ⟨n, h3⟩ := hs j (by omega)
    refine ⟨n, h3, fun he => hmin j hj ?_⟩
    rw [List.take_of_length_le hn, List.take_of_length_le (hw j n h3).1] at he
    rw [he]; exact h3

/-! ### Concrete histories -/

def chan (name : String) (role : Role) : Channel := ⟨some name.toList, 128, 8192, 4096, 1, 2, 3, role⟩

/-- Two channels are registered and found, and one is replaced. -/
def demo : List (Int × Channel) := [(0, chan "net" .driver), (1, chan "disk" .device), (0, chan "net2" .device), (101, chan "no" .driver), (2, ⟨none, 1, 1, 0, 1, 1, 1, .driver⟩)]

example : (run 100 (fun _ => zero) [] demo).2.map (·.result) = [.refused, .refused, .ok, .ok, .ok] ∧
    getChannel 100 (run 100 (fun _ => zero) [] demo).1 .device 0 = some (chan "net2" .device) ∧
    getChannel 100 (run 100 (fun _ => zero) [] demo).1 .driver 0 = none ∧
    getChannel 100 (run 100 (fun _ => zero) [] demo).1 .driver 101 = none ∧
    getId 100 200 (run 100 (fun _ => zero) [] demo).1 "disk".toList = .id 1 := by decide

example : (∀ i, i < 2 → ∃ n, nameOf i (run 100 (fun _ => zero) [] demo).2 = some n) ∧
    ∀ i n, nameOf i (run 100 (fun _ => zero) [] demo).2 = some n → n.length ≤ 200 ∧ i < 2 := by
  have h0 : nameOf 0 (run 100 (fun _ => zero) [] demo).2 = some "net2".toList := by decide
  have h1 : nameOf 1 (run 100 (fun _ => zero) [] demo).2 = some "disk".toList := by decide
  refine ⟨?_, ?_⟩
  · intro i hi
    match i, hi with
    | 0, _ => exact ⟨_, h0⟩
    | 1, _ => exact ⟨_, h1⟩
  · intro i n h
    match i with
    | 0 => rw [h0] at h; cases h; exact ⟨by decide, by decide⟩
    | 1 => rw [h1] at h; cases h; exact ⟨by decide, by decide⟩
    | i + 2 =>
      have hc : current (i + 2) (run 100 (fun _ => zero) [] demo).2 = none := by
        simp [demo, run, register, current, chan]
        rw [if_neg (by omega), if_neg (by omega), if_neg (by omega)]
      rw [nameOf, hc] at h
      cases h

/-- C59 fails: a name that is registered with a later id is not found, because the ids before it are not
registered and their name is the null pointer. -/
theorem gap_faults (max width : Nat) (hm : 1 < max) (c : Channel) (hc : c.buffer ≠ 0 ∧ c.notify ≠ 0) (name : List Char) (hn : c.name = some name) :
    nameOf 1 (run max (fun _ => zero) [] [(1, c)]).2 = some name ∧
    getId max width (run max (fun _ => zero) [] [(1, c)]).1 name = .fault := by
  have hr : register max (fun _ => zero) 1 c = (fun i => if i = 1 then c else zero, .ok) := by
    unfold register
    rw [if_neg (by omega), if_neg (by tauto), if_neg (by omega)]
    rfl
  simp only [run, hr]
  refine ⟨by simp [nameOf, current, hn], ?_⟩
  obtain ⟨m, rfl⟩ : ∃ m, max = m + 1 := ⟨max - 1, by omega⟩
  simp [getId, search, zero]

/-- C59 fails: a name that is not registered is not reported as missing unless all ids are in use. -/
theorem unknown_name_faults (max width : Nat) (hm : 0 < max) (name : List Char) :
    getId max width (run max (fun _ => zero) [] []).1 name = .fault := by
  obtain ⟨m, rfl⟩ : ∃ m, max = m + 1 := ⟨max - 1, by omega⟩
  simp [getId, search, run, zero]

/-- C59 fails: the largest id can be registered, but its name is never found. -/
theorem last_id_not_found (max width : Nat) (cs : List (Int × Channel)) (name : List Char) :
    getId max width (run max (fun _ => zero) [] cs).1 name ≠ .id max := by
  intro h
  have := (((getId_exact max width cs name).1 max).mp h).1
  omega

/-- C59 fails: names that agree in the characters that are compared are confused. -/
theorem long_names_confused (max width : Nat) (hm : 0 < max) (c : Channel) (hc : c.buffer ≠ 0 ∧ c.notify ≠ 0) (name other : List Char)
    (hn : c.name = some name) (he : other.take width = name.take width) (_hne : other ≠ name) :
    getId max width (run max (fun _ => zero) [] [(0, c)]).1 other = .id 0 := by
  have hr : register max (fun _ => zero) 0 c = (fun i => if i = 0 then c else zero, .ok) := by
    unfold register
    rw [if_neg (by omega), if_neg (by tauto), if_neg (by omega)]
    rfl
  simp only [run, hr]
  obtain ⟨m, rfl⟩ : ∃ m, max = m + 1 := ⟨max - 1, by omega⟩
  simp only [getId, search, if_true, hn]
  rw [if_pos ((strncmpEq_iff _ _ _).mpr he)]

/-- C59 fails: a negative id is not refused. -/
theorem negative_id_overruns (max : Nat) (t : Table) (id : Int) (hid : id < 0) (c : Channel) (hc : c.buffer ≠ 0 ∧ c.notify ≠ 0) :
    (register max t id c).2 = .overrun := by
  unfold register
  rw [if_neg (by omega), if_neg (by tauto), if_pos hid]

/-- C59 as stated is false of the code. -/
theorem not_namesFound : ¬ NamesFound 100 200 := by
  intro h
  have := h [(1, chan "net" .driver)] (by simp [chan]) "net".toList
  simp only at this
  rw [show getId 100 200 (run 100 (fun _ => zero) [] [(1, chan "net" .driver)]).1 "net".toList = .fault from
    (gap_faults 100 200 (by omega) (chan "net" .driver) ⟨by decide, by decide⟩ _ rfl).2] at this
  exact this

end Verif.VqChan
