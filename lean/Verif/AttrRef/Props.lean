import Verif.AttrRef.Spec
import Batteries.Data.List.Perm
import Mathlib.Data.List.Nodup

namespace Verif.AttrRef
open Spec
variable {K V : Type}

/-! ### Referents -/

theorem mem_referents (st : List (Setting K V)) (r : Key) (i : Nat) :
    i ∈ referents st r ↔ ∃ v, st[i]? = some ⟨r, v⟩ := by
  simp only [referents, List.mem_filter, List.mem_range, beq_iff_eq]
  constructor
  · rintro ⟨h, he⟩
    rw [List.getElem?_eq_getElem h] at he ⊢
    simp at he
    exact ⟨st[i].value, by rw [← he]⟩
  · rintro ⟨v, hv⟩
    refine ⟨?_, by simp [hv]⟩
    exact (List.getElem?_eq_some_iff.mp hv).1

theorem referents_nodup (st : List (Setting K V)) (r : Key) : (referents st r).Nodup :=
  List.Nodup.filter _ List.nodup_range

theorem referents_nil {st : List (Setting K V)} {r : Key} (h : referents st r = []) : NotSet st r := by
  intro i v hv
  have := (mem_referents st r i).mpr ⟨v, hv⟩
  rw [h] at this; cases this

theorem referents_one {st : List (Setting K V)} {r : Key} {j : Nat} (h : referents st r = [j]) :
    OnlySetting st r j := by
  refine ⟨(mem_referents st r j).mp (by simp [h]), fun i v hv => ?_⟩
  have := (mem_referents st r i).mpr ⟨v, hv⟩
  rw [h] at this; simpa using this

theorem referents_many {st : List (Setting K V)} {r : Key} {a b : Nat} {l : List Nat}
    (h : referents st r = a :: b :: l) : SetTwice st r := by
  have hn := referents_nodup st r
  rw [h] at hn
  obtain ⟨v, hv⟩ := (mem_referents st r a).mp (by simp [h])
  obtain ⟨w, hw⟩ := (mem_referents st r b).mp (by simp [h])
  exact ⟨a, b, v, w, by simp at hn; exact fun e => hn.1.1 e, hv, hw⟩

/-! ### Chains -/

theorem only_unique {s : List (Setting K V)} {r : Key} {i j : Nat} (hi : OnlySetting s r i)
    (hj : OnlySetting s r j) : i = j := by
  obtain ⟨v, hv⟩ := hi.1
  exact hj.2 i v hv

theorem next_unique {s : List (Setting K V)} {i j k : Nat} (h1 : Next s i j) (h2 : Next s i k) : j = k := by
  obtain ⟨_, r, _, h, ho⟩ := h1
  obtain ⟨_, r', _, h', ho'⟩ := h2
  rw [h] at h'
  cases h'
  exact only_unique ho ho'

theorem Spec.Reach.trans {s : List (Setting K V)} {i j k : Nat} (h1 : Reach s i j) (h2 : Reach s j k) :
    Reach s i k := by
  induction h1 with
  | refl => exact h2
  | step a b c hn _ ih => exact .step _ _ _ hn (ih h2)

theorem circular_next {s : List (Setting K V)} {i : Nat} (h : Circular s i) : ∃ j, Next s i j ∧ Circular s j := by
  obtain ⟨m, m', h1, h2, h3⟩ := h
  cases h1 with
  | refl => exact ⟨m', h2, _, m', h3, h2, h3⟩
  | step _ j _ hn hr => exact ⟨j, hn, m, m', hr, h2, h3⟩

theorem circular_of_next {s : List (Setting K V)} {i j : Nat} (h : Circular s j) (hn : Next s i j) :
    Circular s i := by
  obtain ⟨m, m', h1, h2, h3⟩ := h
  exact ⟨m, m', .step _ _ _ hn h1, h2, h3⟩

/-- A setting that stands for a value is not on a chain that runs into a circle. -/
theorem means_not_circular {env : Env K V} {s : List (Setting K V)} {i : Nat} {v : V}
    (h : Means env s i v) : ¬ Circular s i := by
  induction h with
  | lit i k v hi =>
    intro hc
    obtain ⟨j, ⟨_, _, _, h, _⟩, _⟩ := circular_next hc
    rw [hi] at h; cases h
  | follow i k r j v hi ho _ ih =>
    intro hc
    obtain ⟨j', hn, hc'⟩ := circular_next hc
    rw [next_unique hn ⟨k, r, _, hi, ho⟩] at hc'
    exact ih hc'
  | subscript i k r lk j v w hi _ ho _ _ ih =>
    intro hc
    obtain ⟨j', hn, hc'⟩ := circular_next hc
    rw [next_unique hn ⟨k, r, _, hi, ho⟩] at hc'
    exact ih hc'
  | default i k r lk d hi hns _ =>
    intro hc
    obtain ⟨j, ⟨_, _, _, h, ho⟩, _⟩ := circular_next hc
    rw [hi] at h; cases h
    obtain ⟨v, hv⟩ := ho.1
    exact hns _ _ hv
  | ownDefault i k r lk d hi hns _ _ =>
    intro hc
    obtain ⟨j, ⟨_, _, _, h, ho⟩, _⟩ := circular_next hc
    rw [hi] at h; cases h
    obtain ⟨v, hv⟩ := ho.1
    exact hns _ _ hv

/-- A setting stands for at most one value. -/
theorem means_unique {env : Env K V} {s : List (Setting K V)} {i : Nat} {v w : V}
    (h : Means env s i v) (h' : Means env s i w) : v = w := by
  induction h generalizing w with
  | lit i k v hi =>
    cases h' with
    | lit _ _ _ h => rw [hi] at h; cases h; rfl
    | follow _ _ _ _ _ h => rw [hi] at h; cases h
    | subscript _ _ _ _ _ _ _ h => rw [hi] at h; cases h
    | default _ _ _ _ _ h => rw [hi] at h; cases h
    | ownDefault _ _ _ _ _ h => rw [hi] at h; cases h
  | follow i k r j v hi ho _ ih =>
    cases h' with
    | lit _ _ _ h => rw [hi] at h; cases h
    | follow _ _ _ _ _ h ho' hm =>
      rw [hi] at h; cases h; rw [← only_unique ho ho'] at hm; exact ih hm
    | subscript _ _ _ _ _ _ _ h hne => rw [hi] at h; cases h; exact absurd rfl hne
    | default _ _ _ _ _ h hns =>
      rw [hi] at h; cases h; obtain ⟨u, hu⟩ := ho.1; exact absurd hu (hns _ _)
    | ownDefault _ _ _ _ _ h hns =>
      rw [hi] at h; cases h; obtain ⟨u, hu⟩ := ho.1; exact absurd hu (hns _ _)
  | subscript i k r lk j v w' hi hne ho _ hl ih =>
    cases h' with
    | lit _ _ _ h => rw [hi] at h; cases h
    | follow _ _ _ _ _ h ho' hm => rw [hi] at h; cases h; exact absurd rfl hne
    | subscript _ _ _ _ _ _ _ h _ ho' hm hl' =>
      rw [hi] at h; cases h
      rw [← only_unique ho ho'] at hm
      rw [← ih hm, hl] at hl'
      cases hl'; rfl
    | default _ _ _ _ _ h hns =>
      rw [hi] at h; cases h; obtain ⟨u, hu⟩ := ho.1; exact absurd hu (hns _ _)
    | ownDefault _ _ _ _ _ h hns =>
      rw [hi] at h; cases h; obtain ⟨u, hu⟩ := ho.1; exact absurd hu (hns _ _)
  | default i k r lk d hi hns hd =>
    cases h' with
    | lit _ _ _ h => rw [hi] at h; cases h
    | follow _ _ _ _ _ h ho =>
      rw [hi] at h; cases h; obtain ⟨u, hu⟩ := ho.1; exact absurd hu (hns _ _)
    | subscript _ _ _ _ _ _ _ h _ ho =>
      rw [hi] at h; cases h; obtain ⟨u, hu⟩ := ho.1; exact absurd hu (hns _ _)
    | default _ _ _ _ _ h _ hd' => rw [hi] at h; cases h; rw [hd] at hd'; cases hd'; rfl
    | ownDefault _ _ _ _ _ h _ hd' => rw [hi] at h; cases h; rw [hd] at hd'; cases hd'
  | ownDefault i k r lk d hi hns hd hk =>
    cases h' with
    | lit _ _ _ h => rw [hi] at h; cases h
    | follow _ _ _ _ _ h ho =>
      rw [hi] at h; cases h; obtain ⟨u, hu⟩ := ho.1; exact absurd hu (hns _ _)
    | subscript _ _ _ _ _ _ _ h _ ho =>
      rw [hi] at h; cases h; obtain ⟨u, hu⟩ := ho.1; exact absurd hu (hns _ _)
    | default _ _ _ _ _ h _ hd' => rw [hi] at h; cases h; rw [hd] at hd'; cases hd'
    | ownDefault _ _ _ _ _ h _ hd' hk' => rw [hi] at h; cases h; rw [hk] at hk'; cases hk'; rfl

/-! ### The state during resolution -/

/-- Every setting is as originally written or already holds the value it stands for. -/
structure Sim (env : Env K V) (s st : List (Setting K V)) : Prop where
  len : st.length = s.length
  each : ∀ i k v, s[i]? = some ⟨k, v⟩ → st[i]? = some ⟨k, v⟩ ∨
    ∃ w, st[i]? = some ⟨k, .lit w⟩ ∧ Means env s i w

theorem Sim.back {env : Env K V} {s st : List (Setting K V)} (h : Sim env s st) {i : Nat} {k : Key}
    {v : Val K V} (hi : st[i]? = some ⟨k, v⟩) :
    s[i]? = some ⟨k, v⟩ ∨ (∃ v', s[i]? = some ⟨k, v'⟩) ∧ ∃ w, v = .lit w ∧ Means env s i w := by
  have hlt : i < s.length := by
    rw [← h.len]; exact (List.getElem?_eq_some_iff.mp hi).1
  have hs : s[i]? = some ⟨s[i].key, s[i].value⟩ := by rw [List.getElem?_eq_getElem hlt]
  rcases h.each i _ _ hs with h1 | ⟨w, h1, h2⟩
  · rw [h1] at hi; left; rw [hs]; exact hi
  · rw [h1] at hi; cases hi
    right
    exact ⟨⟨_, hs⟩, w, rfl, h2⟩

theorem Sim.key {env : Env K V} {s st : List (Setting K V)} (h : Sim env s st) (i : Nat) (r : Key) :
    (∃ v, st[i]? = some ⟨r, v⟩) ↔ ∃ v, s[i]? = some ⟨r, v⟩ := by
  constructor
  · rintro ⟨v, hv⟩
    rcases h.back hv with h1 | ⟨⟨v', h1⟩, _⟩
    · exact ⟨v, h1⟩
    · exact ⟨v', h1⟩
  · rintro ⟨v, hv⟩
    rcases h.each i r v hv with h1 | ⟨w, h1, _⟩
    · exact ⟨v, h1⟩
    · exact ⟨_, h1⟩

theorem Sim.referents {env : Env K V} {s st : List (Setting K V)} (h : Sim env s st) (r : Key) :
    referents st r = Verif.AttrRef.referents s r := by
  unfold Verif.AttrRef.referents
  rw [h.len]
  apply List.filter_congr
  intro i _
  have := h.key i r
  have e1 : ∀ l : List (Setting K V), (((l[i]?).map (·.key)) == some r) = true ↔ ∃ v, l[i]? = some ⟨r, v⟩ := by
    intro l
    rw [beq_iff_eq]
    cases hl : l[i]? with
    | none => simp
    | some x =>
      obtain ⟨k, v⟩ := x
      simp
  rw [Bool.eq_iff_iff, e1, e1]; exact this

theorem assign_sim {env : Env K V} {s st : List (Setting K V)} (h : Sim env s st) {i : Nat} {v : V}
    (hm : Means env s i v) : Sim env s (assign st i v) := by
  unfold assign
  cases hi : st[i]? with
  | none => exact h
  | some x =>
    simp only
    refine ⟨by simp [h.len], ?_⟩
    intro j k u hj
    by_cases hij : i = j
    · subst hij
      right
      have hlt : i < st.length := (List.getElem?_eq_some_iff.mp hi).1
      obtain ⟨u', hu'⟩ := (h.key i k).mpr ⟨u, hj⟩
      rw [hi] at hu'
      refine ⟨v, ?_, hm⟩
      rw [List.getElem?_set_self hlt]
      cases hu'; rfl
    · rw [List.getElem?_set_ne hij]
      exact h.each j k u hj

theorem assign_get {st : List (Setting K V)} {i : Nat} {k : Key} {u : Val K V} (v : V)
    (hi : st[i]? = some ⟨k, u⟩) : (assign st i v)[i]? = some ⟨k, .lit v⟩ := by
  unfold assign
  rw [hi]
  simp only
  have hlt : i < st.length := (List.getElem?_eq_some_iff.mp hi).1
  rw [List.getElem?_set_self hlt]

theorem assign_mono {st : List (Setting K V)} {i : Nat} (v : V) {j : Nat} {k : Key} {w : V}
    (hj : st[j]? = some ⟨k, .lit w⟩) : ∃ w', (assign st i v)[j]? = some ⟨k, .lit w'⟩ := by
  unfold assign
  cases hi : st[i]? with
  | none => exact ⟨w, hj⟩
  | some x =>
    simp only
    by_cases hij : i = j
    · subst hij
      have hlt : i < st.length := (List.getElem?_eq_some_iff.mp hi).1
      rw [hi] at hj; cases hj
      exact ⟨v, by rw [List.getElem?_set_self hlt]⟩
    · exact ⟨w, by rw [List.getElem?_set_ne hij]; exact hj⟩

/-- Why resolution of a setting can fail. -/
inductive Fails (env : Env K V) (s : List (Setting K V)) : Nat → Err → Prop
  | circular (i) : Circular s i → Fails env s i .parseError
  | twice (i m k r lk) : Reach s i m → s[m]? = some ⟨k, .ref r lk⟩ → SetTwice s r → Fails env s i .parseError
  | deadEnd (i m k r lk) : Reach s i m → s[m]? = some ⟨k, .ref r lk⟩ → NotSet s r →
      env.default r = none → env.default k = none → Fails env s i .assertion
  | key (i m k r lk j v) : Reach s i m → s[m]? = some ⟨k, .ref r lk⟩ → OnlySetting s r j →
      s[j]? = some ⟨r, .lit v⟩ → lk ≠ [] → env.look v lk = none → Fails env s i .keyError

theorem Fails.next {env : Env K V} {s : List (Setting K V)} {i j : Nat} {e : Err} (hn : Next s i j)
    (h : Fails env s j e) : Fails env s i e := by
  cases h with
  | circular hc => exact .circular _ (circular_of_next hc hn)
  | twice m k r lk hr h1 h2 => exact .twice _ m k r lk (.step _ _ _ hn hr) h1 h2
  | deadEnd m k r lk hr h1 h2 h3 h4 => exact .deadEnd _ m k r lk (.step _ _ _ hn hr) h1 h2 h3 h4
  | key m k r lk j v hr h1 h2 h3 h4 h5 => exact .key _ m k r lk j v (.step _ _ _ hn hr) h1 h2 h3 h4 h5

/-- What one call of the recursive function does. -/
inductive Outcome (env : Env K V) (s st : List (Setting K V)) (i : Nat) :
    Option (Except Err (List (Setting K V))) → Prop
  | ok (st' k v) : Sim env s st' → st'[i]? = some ⟨k, .lit v⟩ → Means env s i v →
      (∀ (j : Nat) k w, st[j]? = some ⟨k, .lit w⟩ → ∃ w', st'[j]? = some ⟨k, .lit w'⟩) →
      Outcome env s st i (some (.ok st'))
  | error (e) : Fails env s i e → Outcome env s st i (some (.error e))

/-- The references written in the specification. -/
def refs (s : List (Setting K V)) : List Key :=
  s.filterMap fun x => match x.value with | .ref r _ => some r | .lit _ => none

theorem refs_length (s : List (Setting K V)) : (refs s).length ≤ s.length := List.length_filterMap_le _ _

theorem mem_refs {s : List (Setting K V)} {i : Nat} {k r : Key} {lk : List K}
    (h : s[i]? = some ⟨k, .ref r lk⟩) : r ∈ refs s := by
  unfold refs
  rw [List.mem_filterMap]
  exact ⟨_, List.mem_of_getElem? h, rfl⟩

theorem subResolve_outcome {env : Env K V} {s : List (Setting K V)} (hsub : SubscriptsDirect s) :
    ∀ (fuel : Nat) (st : List (Setting K V)) (i : Nat) (depth : List Key), Sim env s st →
      i < s.length → depth.Nodup → (∀ r ∈ depth, r ∈ refs s) →
      (∀ r ∈ depth, ∃ m, OnlySetting s r m ∧ Reach s m i) → s.length + 1 ≤ fuel + depth.length →
      Outcome env s st i (subResolve env fuel st i depth) := by
  intro fuel
  induction fuel with
  | zero =>
    intro st i depth _ _ hnd hsb _ hf
    have := (List.subperm_of_subset hnd hsb).length_le
    have := refs_length s
    omega
  | succ fuel ih =>
    intro st i depth hsim hi hnd hsb hreach hf
    have hlt : i < st.length := by rw [hsim.len]; exact hi
    obtain ⟨⟨k, val⟩, hst⟩ : ∃ x, st[i]? = some x := ⟨st[i], List.getElem?_eq_getElem hlt⟩
    cases val with
    | lit v =>
      have hm : Means env s i v := by
        rcases hsim.back hst with h1 | ⟨_, w, hw, h2⟩
        · exact .lit i k v h1
        · cases hw; exact h2
      simp only [subResolve, hst]
      exact .ok st k v hsim hst hm (fun j k w h => ⟨w, h⟩)
    | ref r lk =>
      have hs : s[i]? = some ⟨k, .ref r lk⟩ := by
        rcases hsim.back hst with h1 | ⟨_, w, hw, _⟩
        · exact h1
        · cases hw
      simp only [subResolve, hst]
      by_cases hd : r ∈ depth
      · rw [if_pos hd]
        obtain ⟨m, hom, hr⟩ := hreach r hd
        exact .error _ (.circular i ⟨i, m, .refl i, ⟨k, r, lk, hs, hom⟩, hr⟩)
      · rw [if_neg hd]
        rw [hsim.referents r]
        cases hrf : referents s r with
        | nil =>
          have hns := referents_nil hrf
          simp only
          cases hdr : env.default r with
          | some d =>
            have hm : Means env s i d := .default i k r lk d hs hns hdr
            exact .ok _ k d (assign_sim hsim hm) (assign_get d hst) hm (fun j k w h => assign_mono d h)
          | none =>
            simp only
            cases hdk : env.default k with
            | some d =>
              have hm : Means env s i d := .ownDefault i k r lk d hs hns hdr hdk
              exact .ok _ k d (assign_sim hsim hm) (assign_get d hst) hm (fun j k w h => assign_mono d h)
            | none => exact .error _ (.deadEnd i i k r lk (.refl i) hs hns hdr hdk)
        | cons j rest =>
          cases rest with
          | cons a b =>
            simp only
            exact .error _ (.twice i i k r lk (.refl i) hs (referents_many hrf))
          | nil =>
            have ho := referents_one hrf
            obtain ⟨vj, hvj⟩ := ho.1
            have hn : Next s i j := ⟨k, r, lk, hs, ho⟩
            have hjlt : j < s.length := (List.getElem?_eq_some_iff.mp hvj).1
            simp only
            obtain ⟨uj, huj⟩ := (hsim.key j r).mpr ⟨vj, hvj⟩
            rw [huj]
            cases uj with
            | ref r2 lk2 =>
              have hlk : lk = [] := by
                by_contra hne
                rcases hsim.back huj with h1 | ⟨_, w, hw, _⟩
                · obtain ⟨w, hw⟩ := hsub i k r lk hs hne j _ h1
                  cases hw
                · cases hw
              subst hlk
              simp only
              have hout := ih st j (depth ++ [r]) hsim hjlt
                (by
                  rw [List.nodup_append]
                  refine ⟨hnd, by simp, ?_⟩
                  intro a ha b hb
                  simp at hb; subst hb
                  exact fun e => hd (e ▸ ha))
                (by
                  intro x hx
                  rcases List.mem_append.mp hx with hx | hx
                  · exact hsb x hx
                  · simp at hx; subst hx; exact mem_refs hs)
                (by
                  intro x hx
                  rcases List.mem_append.mp hx with hx | hx
                  · obtain ⟨m, h1, h2⟩ := hreach x hx
                    exact ⟨m, h1, h2.trans (.step _ _ _ hn (.refl _))⟩
                  · simp at hx; subst hx; exact ⟨j, ho, .refl j⟩)
                (by simp; omega)
              generalize subResolve env fuel st j (depth ++ [r]) = res at hout
              cases hout with
              | ok st' k' v hsim' hj' hm' hmono =>
                simp only [hj']
                have hm : Means env s i v := .follow i k r j v hs ho hm'
                obtain ⟨u, hu⟩ := (hsim'.key i k).mpr ⟨_, hs⟩
                refine .ok _ k v (assign_sim hsim' hm) (assign_get v hu) hm (fun a b w h => ?_)
                obtain ⟨w', hw'⟩ := hmono a b w h
                exact assign_mono v hw'
              | error e he => exact .error _ (he.next hn)
            | lit v =>
              have hmj : Means env s j v := by
                rcases hsim.back huj with h1 | ⟨_, w, hw, h2⟩
                · exact .lit j r v h1
                · cases hw; exact h2
              simp only
              by_cases hlk : lk = []
              · subst hlk
                rw [if_pos rfl]
                have hm : Means env s i v := .follow i k r j v hs ho hmj
                exact .ok _ k v (assign_sim hsim hm) (assign_get v hst) hm (fun j k w h => assign_mono v h)
              · rw [if_neg hlk]
                cases hlook : env.look v lk with
                | some w =>
                  simp only
                  have hm : Means env s i w := .subscript i k r lk j v w hs hlk ho hmj hlook
                  exact .ok _ k w (assign_sim hsim hm) (assign_get w hst) hm (fun j k w' h => assign_mono w h)
                | none =>
                  simp only
                  obtain ⟨u, hu⟩ := hsub i k r lk hs hlk j _ hvj
                  subst hu
                  have : v = u := means_unique hmj (.lit j r u hvj)
                  subst this
                  exact .error _ (.key i i k r lk j v (.refl i) hs ho hvj hlk hlook)

/-- Failing and standing for a value exclude each other. -/
theorem fails_not_means {env : Env K V} {s : List (Setting K V)} {i : Nat} {v : V}
    (h : Means env s i v) (e : Err) : ¬ Fails env s i e := by
  intro hf
  -- walk to the place of failure
  have walk : ∀ {a m : Nat}, Reach s a m → ∀ u, Means env s a u → ∃ u', Means env s m u' := by
    intro a m hr
    induction hr with
    | refl => intro u hu; exact ⟨u, hu⟩
    | step a b c hn _ ih =>
      intro u hu
      obtain ⟨k, r, lk, h1, h2⟩ := hn
      cases hu with
      | lit _ _ _ h => rw [h1] at h; cases h
      | follow _ _ _ _ _ h ho hm => rw [h1] at h; cases h; rw [only_unique ho h2] at hm; exact ih _ hm
      | subscript _ _ _ _ _ _ _ h _ ho hm => rw [h1] at h; cases h; rw [only_unique ho h2] at hm; exact ih _ hm
      | default _ _ _ _ _ h hns => rw [h1] at h; cases h; obtain ⟨u, hu⟩ := h2.1; exact absurd hu (hns _ _)
      | ownDefault _ _ _ _ _ h hns => rw [h1] at h; cases h; obtain ⟨u, hu⟩ := h2.1; exact absurd hu (hns _ _)
  cases hf with
  | circular hc => exact means_not_circular h hc
  | twice m k r lk hr h1 h2 =>
    obtain ⟨u, hu⟩ := walk hr v h
    obtain ⟨a, b, x, y, hne, ha, hb⟩ := h2
    cases hu with
    | lit _ _ _ h => rw [h1] at h; cases h
    | follow _ _ _ _ _ h ho hm => rw [h1] at h; cases h; exact hne ((ho.2 _ _ ha).trans (ho.2 _ _ hb).symm)
    | subscript _ _ _ _ _ _ _ h _ ho hm =>
      rw [h1] at h; cases h; exact hne ((ho.2 _ _ ha).trans (ho.2 _ _ hb).symm)
    | default _ _ _ _ _ h hns => rw [h1] at h; cases h; exact hns _ _ ha
    | ownDefault _ _ _ _ _ h hns => rw [h1] at h; cases h; exact hns _ _ ha
  | deadEnd m k r lk hr h1 h2 h3 h4 =>
    obtain ⟨u, hu⟩ := walk hr v h
    cases hu with
    | lit _ _ _ h => rw [h1] at h; cases h
    | follow _ _ _ _ _ h ho hm => rw [h1] at h; cases h; obtain ⟨u, hu⟩ := ho.1; exact h2 _ _ hu
    | subscript _ _ _ _ _ _ _ h _ ho hm => rw [h1] at h; cases h; obtain ⟨u, hu⟩ := ho.1; exact h2 _ _ hu
    | default _ _ _ _ _ h _ hd => rw [h1] at h; cases h; rw [h3] at hd; cases hd
    | ownDefault _ _ _ _ _ h _ _ hd => rw [h1] at h; cases h; rw [h4] at hd; cases hd
  | key m k r lk j x hr h1 h2 h3 h4 h5 =>
    obtain ⟨u, hu⟩ := walk hr v h
    cases hu with
    | lit _ _ _ h => rw [h1] at h; cases h
    | follow _ _ _ _ _ h ho hm => rw [h1] at h; cases h; exact h4 rfl
    | subscript _ _ _ _ _ _ _ h _ ho hm hl =>
      rw [h1] at h; cases h
      rw [only_unique ho h2] at hm
      rw [means_unique hm (.lit j _ x h3), h5] at hl
      cases hl
    | default _ _ _ _ _ h hns => rw [h1] at h; cases h; exact hns _ _ h3
    | ownDefault _ _ _ _ _ h hns => rw [h1] at h; cases h; exact hns _ _ h3

theorem loop_outcome [DecidableEq K] {env : Env K V} {s : List (Setting K V)} (hsub : SubscriptsDirect s)
    (fuel : Nat) (hf : s.length + 1 ≤ fuel) :
    ∀ (is : List Nat) (st : List (Setting K V)), Sim env s st → (∀ i ∈ is, i < s.length) →
      (∃ st', loop env fuel st is = some (.ok st') ∧ Sim env s st' ∧
        (∀ i ∈ is, (∃ k v, st'[i]? = some ⟨k, .lit v⟩) ∧ ∃ v, Means env s i v) ∧
        (∀ (j : Nat) k w, st[j]? = some ⟨k, .lit w⟩ → ∃ w', st'[j]? = some ⟨k, .lit w'⟩)) ∨
      ∃ e, loop env fuel st is = some (.error e) ∧ ∃ i ∈ is, Fails env s i e := by
  intro is
  induction is with
  | nil => intro st hsim _; exact .inl ⟨st, rfl, hsim, by simp, fun j k w h => ⟨w, h⟩⟩
  | cons i is ih =>
    intro st hsim hlt
    have hout := subResolve_outcome hsub fuel st i [] hsim (hlt i (by simp)) List.nodup_nil (by simp)
      (by simp) (by simpa using hf)
    simp only [loop]
    generalize subResolve env fuel st i [] = res at hout
    cases hout with
    | error e he => exact .inr ⟨e, rfl, i, by simp, he⟩
    | ok st' k v hsim' hi' hm hmono =>
      simp only
      rcases ih st' hsim' (fun j hj => hlt j (by simp [hj])) with ⟨st2, h1, h2, h3, h4⟩ | ⟨e, h1, j, hj, h2⟩
      · refine .inl ⟨st2, h1, h2, ?_, ?_⟩
        · intro j hj
          rcases List.mem_cons.mp hj with rfl | hj
          · obtain ⟨w, hw⟩ := h4 j k v hi'
            exact ⟨⟨k, w, hw⟩, v, hm⟩
          · exact h3 j hj
        · intro j k w h
          obtain ⟨w', hw'⟩ := hmono j k w h
          exact h4 j k w' hw'
      · exact .inr ⟨e, h1, j, by simp [hj], h2⟩

theorem sim_self (env : Env K V) (s : List (Setting K V)) : Sim env s s :=
  ⟨rfl, fun _ _ _ h => .inl h⟩

/-- Is the setting number `i` written as a reference? -/
theorem isR_iff (s : List (Setting K V)) (i : Nat) :
    ((s[i]?).map isRef).getD false = true ↔ ∃ k r lk, s[i]? = some ⟨k, .ref r lk⟩ := by
  cases h : s[i]? with
  | none => simp
  | some x =>
    obtain ⟨k, v⟩ := x
    cases v <;> simp [isRef]

/-- The whole pass: either it succeeds and every setting stands for a value, or it fails because
some setting fails. -/
theorem resolve_outcome [DecidableEq K] (env : Env K V) (s : List (Setting K V)) (hsub : SubscriptsDirect s)
    (fuel : Nat) (hf : s.length + 1 ≤ fuel) :
    (∃ out, resolve env fuel s = some (.ok out) ∧ (∀ i, i < s.length → ∃ v, Means env s i v) ∧
      out.length = s.length ∧
      ∀ x, x ∈ out ↔ ∃ i k w v, s[i]? = some ⟨k, w⟩ ∧ Means env s i v ∧ x = ⟨k, .lit v⟩) ∨
    ∃ e, resolve env fuel s = some (.error e) ∧ ∃ i, i < s.length ∧ Fails env s i e := by
  have hlo := loop_outcome hsub fuel hf ((List.range s.length).filter
    (fun i => ((s[i]?).map isRef).getD false)) s (sim_self env s)
    (fun i hi => by simp at hi; exact hi.1)
  rcases hlo with ⟨st', h1, h2, h3, h4⟩ | ⟨e, h1, i, hi, h2⟩
  · left
    have hlit : ∀ i, i < s.length → ∃ k v, st'[i]? = some ⟨k, .lit v⟩ ∧ Means env s i v := by
      intro i hi
      have hx : ∃ k v, st'[i]? = some ⟨k, .lit v⟩ := by
        by_cases hr : ((s[i]?).map isRef).getD false = true
        · exact (h3 i (by simp only [List.mem_filter, List.mem_range]; exact ⟨hi, hr⟩)).1
        · have hs : s[i]? = some ⟨s[i].key, s[i].value⟩ := by rw [List.getElem?_eq_getElem hi]
          cases hv : s[i].value with
          | lit v =>
            rw [hv] at hs
            obtain ⟨w, hw⟩ := h4 i _ v hs
            exact ⟨_, w, hw⟩
          | ref r lk =>
            rw [hv] at hs
            exact absurd ((isR_iff s i).mpr ⟨_, _, _, hs⟩) hr
      obtain ⟨k, v, hx⟩ := hx
      rcases h2.back hx with h5 | ⟨_, w, hw, h5⟩
      · exact ⟨k, v, hx, .lit i k v h5⟩
      · cases hw; exact ⟨k, v, hx, h5⟩
    refine ⟨_, by simp only [resolve, h1]; rfl, fun i hi => ?_, ?_, ?_⟩
    · obtain ⟨_, v, _, hv⟩ := hlit i hi; exact ⟨v, hv⟩
    · have hsome : ∀ l : List Nat, (∀ i ∈ l, i < s.length) → (l.filterMap (fun i => st'[i]?)).length = l.length := by
        intro l
        induction l with
        | nil => simp
        | cons a l ih =>
          intro hl
          obtain ⟨k, v, hx, _⟩ := hlit a (hl a (by simp))
          simp [hx, ih (fun i hi => hl i (by simp [hi]))]
      rw [hsome]
      · rw [List.length_append]
        have := List.length_eq_length_filter_add (l := List.range s.length)
          (fun i => ((s[i]?).map isRef).getD false)
        simp only [List.length_range] at this
        omega
      · intro i hi
        simp only [List.mem_append, List.mem_filter, List.mem_range] at hi
        rcases hi with hi | hi <;> exact hi.1
    · intro x
      simp only [List.mem_filterMap, List.mem_append, List.mem_filter, List.mem_range]
      constructor
      · rintro ⟨i, hi, hx⟩
        have hi' : i < s.length := by rcases hi with hi | hi <;> exact hi.1
        obtain ⟨k, v, hv, hm⟩ := hlit i hi'
        rw [hv] at hx
        cases hx
        obtain ⟨u, hu⟩ := (h2.key i k).mp ⟨_, hv⟩
        exact ⟨i, k, u, v, hu, hm, rfl⟩
      · rintro ⟨i, k, w, v, hs, hm, rfl⟩
        have hi' : i < s.length := (List.getElem?_eq_some_iff.mp hs).1
        obtain ⟨k', v', hv, hm'⟩ := hlit i hi'
        refine ⟨i, ?_, ?_⟩
        · cases hb : ((s[i]?).map isRef).getD false with
          | true => exact .inr ⟨hi', rfl⟩
          | false => exact .inl ⟨hi', rfl⟩
        · rw [hv, means_unique hm hm']
          obtain ⟨u, hu⟩ := (h2.key i k').mp ⟨_, hv⟩
          rw [hs] at hu
          cases hu; rfl
  · right
    refine ⟨e, by simp only [resolve, h1], i, ?_, h2⟩
    simp at hi; exact hi.1

/-! ### The properties -/

/-- C16 (partial: references with a subscript must refer to literal settings; see
`subscript_order_dependent`): if every setting stands for a value, resolution succeeds, and the
result has exactly one entry for each setting, holding that value. Since `Means` does not depend
on the order of the settings, neither does the result. -/
theorem references_resolved_partial [DecidableEq K] (env : Env K V) (s : List (Setting K V))
    (hsub : SubscriptsDirect s) (h : ∀ i, i < s.length → ∃ v, Means env s i v) (fuel : Nat)
    (hf : s.length + 1 ≤ fuel) :
    ∃ out, resolve env fuel s = some (.ok out) ∧ out.length = s.length ∧
      ∀ x, x ∈ out ↔ ∃ i k w v, s[i]? = some ⟨k, w⟩ ∧ Means env s i v ∧ x = ⟨k, .lit v⟩ := by
  rcases resolve_outcome env s hsub fuel hf with ⟨out, h1, _, h2, h3⟩ | ⟨e, _, i, hi, h2⟩
  · exact ⟨out, h1, h2, h3⟩
  · obtain ⟨v, hv⟩ := h i hi
    exact absurd h2 (fails_not_means hv e)

/-- C16: conversely, resolution succeeds only if every setting stands for a value. -/
theorem resolved_only_if_value [DecidableEq K] (env : Env K V) (s : List (Setting K V))
    (hsub : SubscriptsDirect s) (fuel : Nat) (hf : s.length + 1 ≤ fuel) (out : List (Setting K V))
    (hr : resolve env fuel s = some (.ok out)) : ∀ i, i < s.length → ∃ v, Means env s i v := by
  rcases resolve_outcome env s hsub fuel hf with ⟨out, h1, h2, _⟩ | ⟨e, h1, _⟩
  · exact h2
  · rw [hr] at h1; cases h1

/-! #### Termination and circles, without any restriction on subscripts -/

structure Sim0 (s st : List (Setting K V)) : Prop where
  len : st.length = s.length
  each : ∀ (i : Nat) k v, s[i]? = some ⟨k, v⟩ → st[i]? = some ⟨k, v⟩ ∨
    ∃ w, st[i]? = some ⟨k, .lit w⟩ ∧ ¬ Circular s i

theorem Sim0.back {s st : List (Setting K V)} (h : Sim0 s st) {i : Nat} {k : Key}
    {v : Val K V} (hi : st[i]? = some ⟨k, v⟩) :
    s[i]? = some ⟨k, v⟩ ∨ (∃ v', s[i]? = some ⟨k, v'⟩) ∧ ∃ w, v = .lit w ∧ ¬ Circular s i := by
  have hlt : i < s.length := by
    rw [← h.len]; exact (List.getElem?_eq_some_iff.mp hi).1
  have hs : s[i]? = some ⟨s[i].key, s[i].value⟩ := by rw [List.getElem?_eq_getElem hlt]
  rcases h.each i _ _ hs with h1 | ⟨w, h1, h2⟩
  · rw [h1] at hi; left; rw [hs]; exact hi
  · rw [h1] at hi; cases hi
    right
    exact ⟨⟨_, hs⟩, w, rfl, h2⟩

theorem Sim0.key {s st : List (Setting K V)} (h : Sim0 s st) (i : Nat) (r : Key) :
    (∃ v, st[i]? = some ⟨r, v⟩) ↔ ∃ v, s[i]? = some ⟨r, v⟩ := by
  constructor
  · rintro ⟨v, hv⟩
    rcases h.back hv with h1 | ⟨⟨v', h1⟩, _⟩
    · exact ⟨v, h1⟩
    · exact ⟨v', h1⟩
  · rintro ⟨v, hv⟩
    rcases h.each i r v hv with h1 | ⟨w, h1, _⟩
    · exact ⟨v, h1⟩
    · exact ⟨_, h1⟩

theorem Sim0.referents {s st : List (Setting K V)} (h : Sim0 s st) (r : Key) :
    referents st r = Verif.AttrRef.referents s r := by
  unfold Verif.AttrRef.referents
  rw [h.len]
  apply List.filter_congr
  intro i _
  have := h.key i r
  have e1 : ∀ l : List (Setting K V), (((l[i]?).map (·.key)) == some r) = true ↔ ∃ v, l[i]? = some ⟨r, v⟩ := by
    intro l
    rw [beq_iff_eq]
    cases hl : l[i]? with
    | none => simp
    | some x =>
      obtain ⟨k, v⟩ := x
      simp
  rw [Bool.eq_iff_iff, e1, e1]; exact this

theorem assign_sim0 {s st : List (Setting K V)} (h : Sim0 s st) {i : Nat} (v : V)
    (hm : ¬ Circular s i) : Sim0 s (assign st i v) := by
  unfold assign
  cases hi : st[i]? with
  | none => exact h
  | some x =>
    simp only
    refine ⟨by simp [h.len], ?_⟩
    intro j k u hj
    by_cases hij : i = j
    · subst hij
      right
      have hlt : i < st.length := (List.getElem?_eq_some_iff.mp hi).1
      obtain ⟨u', hu'⟩ := (h.key i k).mpr ⟨u, hj⟩
      rw [hi] at hu'
      refine ⟨v, ?_, hm⟩
      rw [List.getElem?_set_self hlt]
      cases hu'; rfl
    · rw [List.getElem?_set_ne hij]
      exact h.each j k u hj

inductive Outcome0 (s : List (Setting K V)) (i : Nat) :
    Option (Except Err (List (Setting K V))) → Prop
  | ok (st' k v) : Sim0 s st' → st'[i]? = some ⟨k, .lit v⟩ → ¬ Circular s i → Outcome0 s i (some (.ok st'))
  | error (e) : (e = .parseError ∨ ¬ Circular s i) → Outcome0 s i (some (.error e))

theorem subResolve_outcome0 {env : Env K V} {s : List (Setting K V)} :
    ∀ (fuel : Nat) (st : List (Setting K V)) (i : Nat) (depth : List Key), Sim0 s st →
      i < s.length → depth.Nodup → (∀ r ∈ depth, r ∈ refs s) → s.length + 1 ≤ fuel + depth.length →
      Outcome0 s i (subResolve env fuel st i depth) := by
  intro fuel
  induction fuel with
  | zero =>
    intro st i depth _ _ hnd hsb hf
    have := (List.subperm_of_subset hnd hsb).length_le
    have := refs_length s
    omega
  | succ fuel ih =>
    intro st i depth hsim hi hnd hsb hf
    have hlt : i < st.length := by rw [hsim.len]; exact hi
    obtain ⟨⟨k, val⟩, hst⟩ : ∃ x, st[i]? = some x := ⟨st[i], List.getElem?_eq_getElem hlt⟩
    cases val with
    | lit v =>
      have hm : ¬ Circular s i := by
        rcases hsim.back hst with h1 | ⟨_, w, hw, h2⟩
        · intro hc
          obtain ⟨j, ⟨_, _, _, h, _⟩, _⟩ := circular_next hc
          rw [h1] at h; cases h
        · exact h2
      simp only [subResolve, hst]
      exact .ok st k v hsim hst hm
    | ref r lk =>
      have hs : s[i]? = some ⟨k, .ref r lk⟩ := by
        rcases hsim.back hst with h1 | ⟨_, w, hw, _⟩
        · exact h1
        · cases hw
      simp only [subResolve, hst]
      by_cases hd : r ∈ depth
      · rw [if_pos hd]
        exact .error _ (.inl rfl)
      · rw [if_neg hd]
        rw [hsim.referents r]
        cases hrf : referents s r with
        | nil =>
          have hns := referents_nil hrf
          have hnc : ¬ Circular s i := by
            intro hc
            obtain ⟨j, ⟨_, _, _, h, ho⟩, _⟩ := circular_next hc
            rw [hs] at h; cases h
            obtain ⟨v, hv⟩ := ho.1
            exact hns _ _ hv
          simp only
          cases hdr : env.default r with
          | some d => exact .ok _ k d (assign_sim0 hsim d hnc) (assign_get d hst) hnc
          | none =>
            simp only
            cases hdk : env.default k with
            | some d => exact .ok _ k d (assign_sim0 hsim d hnc) (assign_get d hst) hnc
            | none => exact .error _ (.inr hnc)
        | cons j rest =>
          cases rest with
          | cons a b => exact .error _ (.inl rfl)
          | nil =>
            have ho := referents_one hrf
            obtain ⟨vj, hvj⟩ := ho.1
            have hn : Next s i j := ⟨k, r, lk, hs, ho⟩
            have hback : ¬ Circular s j → ¬ Circular s i := by
              intro hj hc
              obtain ⟨j', hn', hc'⟩ := circular_next hc
              rw [next_unique hn' hn] at hc'
              exact hj hc'
            have hjlt : j < s.length := (List.getElem?_eq_some_iff.mp hvj).1
            simp only
            obtain ⟨uj, huj⟩ := (hsim.key j r).mpr ⟨vj, hvj⟩
            rw [huj]
            cases uj with
            | ref r2 lk2 =>
              simp only
              have hout := ih st j (depth ++ [r]) hsim hjlt
                (by
                  rw [List.nodup_append]
                  refine ⟨hnd, by simp, ?_⟩
                  intro a ha b hb
                  simp at hb; subst hb
                  exact fun e => hd (e ▸ ha))
                (by
                  intro x hx
                  rcases List.mem_append.mp hx with hx | hx
                  · exact hsb x hx
                  · simp at hx; subst hx; exact mem_refs hs)
                (by simp; omega)
              generalize subResolve env fuel st j (depth ++ [r]) = res at hout
              cases hout with
              | ok st' k' v hsim' hj' hm' =>
                simp only [hj']
                obtain ⟨u, hu⟩ := (hsim'.key i k).mpr ⟨_, hs⟩
                exact .ok _ k v (assign_sim0 hsim' v (hback hm')) (assign_get v hu) (hback hm')
              | error e he => exact .error _ (he.imp id hback)
            | lit v =>
              have hmj : ¬ Circular s j := by
                rcases hsim.back huj with h1 | ⟨_, w, hw, h2⟩
                · intro hc
                  obtain ⟨j, ⟨_, _, _, h, _⟩, _⟩ := circular_next hc
                  rw [h1] at h; cases h
                · exact h2
              simp only
              by_cases hlk : lk = []
              · rw [if_pos hlk]
                exact .ok _ k v (assign_sim0 hsim v (hback hmj)) (assign_get v hst) (hback hmj)
              · rw [if_neg hlk]
                cases hlook : env.look v lk with
                | some w => exact .ok _ k w (assign_sim0 hsim w (hback hmj)) (assign_get w hst) (hback hmj)
                | none => exact .error _ (.inr (hback hmj))

theorem loop_outcome0 [DecidableEq K] {env : Env K V} {s : List (Setting K V)}
    (fuel : Nat) (hf : s.length + 1 ≤ fuel) :
    ∀ (is : List Nat) (st : List (Setting K V)), Sim0 s st → (∀ i ∈ is, i < s.length) →
      (∃ st', loop env fuel st is = some (.ok st') ∧ ∀ i ∈ is, ¬ Circular s i) ∨
      ∃ e, loop env fuel st is = some (.error e) ∧ ∃ i ∈ is, e = .parseError ∨ ¬ Circular s i := by
  intro is
  induction is with
  | nil => intro st hsim _; exact .inl ⟨st, rfl, by simp⟩
  | cons i is ih =>
    intro st hsim hlt
    have hout := subResolve_outcome0 (env := env) fuel st i [] hsim (hlt i (by simp)) List.nodup_nil (by simp)
      (by simpa using hf)
    simp only [loop]
    generalize subResolve env fuel st i [] = res at hout
    cases hout with
    | error e he => exact .inr ⟨e, rfl, i, by simp, he⟩
    | ok st' k v hsim' hi' hm =>
      simp only
      rcases ih st' hsim' (fun j hj => hlt j (by simp [hj])) with ⟨st2, h1, h2⟩ | ⟨e, h1, j, hj, h2⟩
      · refine .inl ⟨st2, h1, fun j hj => ?_⟩
        rcases List.mem_cons.mp hj with rfl | hj
        · exact hm
        · exact h2 j hj
      · exact .inr ⟨e, h1, j, by simp [hj], h2⟩

/-- C17: resolution always terminates: as many levels of recursion as there are settings, plus
one, always suffice. -/
theorem resolve_terminates [DecidableEq K] (env : Env K V) (s : List (Setting K V)) (fuel : Nat)
    (hf : s.length + 1 ≤ fuel) : ∃ r, resolve env fuel s = some r := by
  rcases loop_outcome0 (env := env) fuel hf ((List.range s.length).filter
    (fun i => ((s[i]?).map isRef).getD false)) s ⟨rfl, fun _ _ _ h => .inl h⟩
    (fun i hi => by simp at hi; exact hi.1) with ⟨st', h1, _⟩ | ⟨e, h1, _⟩
  · exact ⟨_, by simp only [resolve, h1]; rfl⟩
  · exact ⟨.error e, by simp only [resolve, h1]⟩

/-- C17: if some setting's chain of references is circular, resolution ends with an error, which
is a parse error or due to another setting. -/
theorem circular_rejected [DecidableEq K] (env : Env K V) (s : List (Setting K V))
    (fuel : Nat) (hf : s.length + 1 ≤ fuel) (i : Nat) (hi : i < s.length) (hc : Circular s i) :
    ∃ e, resolve env fuel s = some (.error e) ∧ (e = .parseError ∨ ∃ j, j < s.length ∧ ¬ Circular s j) := by
  rcases loop_outcome0 (env := env) fuel hf ((List.range s.length).filter
    (fun i => ((s[i]?).map isRef).getD false)) s ⟨rfl, fun _ _ _ h => .inl h⟩
    (fun i hi => by simp at hi; exact hi.1) with ⟨st', h1, h2⟩ | ⟨e, h1, j, hj, h2⟩
  · refine absurd hc (h2 i ?_)
    simp only [List.mem_filter, List.mem_range]
    obtain ⟨_, ⟨k, r, lk, h, _⟩, _⟩ := circular_next hc
    exact ⟨hi, (isR_iff s i).mpr ⟨k, r, lk, h⟩⟩
  · refine ⟨e, by simp only [resolve, h1], h2.imp id (fun h => ⟨j, ?_, h⟩)⟩
    simp at hj; exact hj.1

/-- C17: the error is a parse error unless another setting is wrong in another way: if every
setting stands for a value or is on a circular chain, and one is circular, the result is a parse
error. -/
theorem circular_parse_error [DecidableEq K] (env : Env K V) (s : List (Setting K V))
    (hsub : SubscriptsDirect s) (fuel : Nat) (hf : s.length + 1 ≤ fuel)
    (hall : ∀ i, i < s.length → (∃ v, Means env s i v) ∨ Circular s i) (i : Nat) (hi : i < s.length)
    (hc : Circular s i) : resolve env fuel s = some (.error .parseError) := by
  rcases resolve_outcome env s hsub fuel hf with ⟨out, h1, h2, _⟩ | ⟨e, hres, j, hj, h2⟩
  · obtain ⟨v, hv⟩ := h2 i hi
    exact absurd hc (means_not_circular hv)
  · rw [hres]
    rcases hall j hj with ⟨v, hv⟩ | hcj
    · exact absurd h2 (fails_not_means hv e)
    · -- a circular chain has no end at which another error could arise
      have walk : ∀ {a m : Nat}, Reach s a m → Circular s a → Circular s m := by
        intro a m hr
        induction hr with
        | refl => exact id
        | step a b c hn _ ih =>
          intro hca
          obtain ⟨b', hn', hc'⟩ := circular_next hca
          rw [next_unique hn' hn] at hc'
          exact ih hc'
      cases h2 with
      | circular => rfl
      | twice => rfl
      | deadEnd m k r lk hr h1 h2 =>
        obtain ⟨b, ⟨_, _, _, h, ho⟩, _⟩ := circular_next (walk hr hcj)
        rw [h1] at h; cases h
        obtain ⟨u, hu⟩ := ho.1
        exact absurd hu (h2 _ _)
      | key m k r lk b v hr h1 h2 h3 =>
        obtain ⟨b', ⟨_, _, _, h, ho⟩, hb⟩ := circular_next (walk hr hcj)
        rw [h1] at h; cases h
        rw [only_unique ho h2] at hb
        obtain ⟨_, ⟨_, _, _, h, _⟩, _⟩ := circular_next hb
        rw [h3] at h; cases h

/-! ### Concrete cases -/

/-- Dicts as values: a number or a table. -/
inductive DV | num (n : Nat) | dict (l : List (String × Nat))
  deriving DecidableEq, Repr

def demoEnv : Env String DV where
  default := fun k => if k = ("d", "x") then some (.num 9) else none
  look := fun v ks => match v, ks with
    | .dict l, [k] => (l.lookup k).map .num
    | .dict _, _ => none
    | .num n, _ => some (.num n)

def demo : List (Setting String DV) :=
  [⟨("a", "x"), .ref ("b", "y") []⟩, ⟨("b", "y"), .ref ("c", "z") []⟩, ⟨("c", "z"), .lit (.num 4)⟩,
   ⟨("e", "x"), .ref ("d", "x") []⟩]

example : resolve demoEnv 5 demo = some (.ok
    [⟨("c", "z"), .lit (.num 4)⟩, ⟨("a", "x"), .lit (.num 4)⟩, ⟨("b", "y"), .lit (.num 4)⟩,
     ⟨("e", "x"), .lit (.num 9)⟩]) := rfl

/-- The hypotheses of `references_resolved_partial` are met by `demo`. -/
theorem demo_direct : SubscriptsDirect demo := by
  intro i k r lk h hne
  match i with
  | 0 | 1 | 2 | 3 => simp [demo] at h; first | exact absurd h.2.2.symm hne | exact absurd h.2.2 hne | skip
  | i + 4 => simp [demo] at h

example : resolve demoEnv 5 [⟨("a", "x"), .ref ("b", "y") []⟩, ⟨("b", "y"), .ref ("a", "x") []⟩] =
    some (.error .parseError) := rfl

/-- C16 fails for subscripted references through another reference: whether `a.x <- b.y["k"]`
yields the entry or the whole dict depends on the order in which the settings are written. -/
theorem subscript_order_dependent :
    let a : Setting String DV := ⟨("a", "x"), .ref ("b", "y") ["k"]⟩
    let b : Setting String DV := ⟨("b", "y"), .ref ("c", "z") []⟩
    let c : Setting String DV := ⟨("c", "z"), .lit (.dict [("k", 1)])⟩
    (∃ out, resolve demoEnv 4 [a, b, c] = some (.ok out) ∧ ⟨("a", "x"), .lit (.dict [("k", 1)])⟩ ∈ out) ∧
    (∃ out, resolve demoEnv 4 [b, a, c] = some (.ok out) ∧ ⟨("a", "x"), .lit (.num 1)⟩ ∈ out) := by
  refine ⟨⟨_, rfl, ?_⟩, ⟨_, rfl, ?_⟩⟩ <;> decide

end Verif.AttrRef
