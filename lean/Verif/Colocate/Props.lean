import Verif.Colocate.Spec
import Mathlib.Data.List.Nodup
import Mathlib.Data.List.Perm.Basic
import Mathlib.Data.List.Lookmap

/-!
# C111: instances that share an address space
-/

namespace Verif.Colocate
open Spec

/-! ## Instances and groups -/

theorem mem_numbered (c : Comp) (k : Nat) (i : Inst) : (k, i) ∈ numbered c ↔ At c k i := by
  unfold numbered At
  rw [List.mem_iff_getElem?]
  constructor
  · rintro ⟨j, h⟩
    rw [List.getElem?_zip_eq_some] at h
    obtain ⟨h1, h2⟩ := h
    obtain ⟨h3, h4⟩ := List.getElem?_eq_some_iff.1 h1
    simp only [List.getElem_range] at h4
    subst h4; exact h2
  · intro h
    refine ⟨k, ?_⟩
    rw [List.getElem?_zip_eq_some]
    refine ⟨?_, h⟩
    obtain ⟨h1, _⟩ := List.getElem?_eq_some_iff.1 h
    exact List.getElem?_range h1

theorem mem_software (c : Comp) (k : Nat) (i : Inst) :
    (k, i) ∈ software c ↔ At c k i ∧ i.hardware = false := by
  simp [software, mem_numbered]

theorem numbered_nodup (c : Comp) : ((numbered c).map Prod.fst).Nodup := by
  unfold numbered
  rw [List.map_fst_zip (by simp)]
  exact List.nodup_range

theorem software_nodup (c : Comp) : ((software c).map Prod.fst).Nodup :=
  (numbered_nodup c).sublist (List.Sublist.map _ List.filter_sublist)

theorem append_cancel {a b s : String} (h : a ++ s = b ++ s) : a = b := by
  have h1 := congrArg String.toList h
  simp only [String.toList_append, List.append_left_inj] at h1
  exact String.toList_inj.1 h1

theorem elfName_inj {a b : String} (h : elfName a = elfName b) : a = b := append_cancel h

theorem mem_members (c : Comp) (g : String) (k : Nat) (i : Inst) :
    (k, i) ∈ members c g ↔ At c k i ∧ i.hardware = false ∧ i.space = g := by
  simp only [members, List.mem_filter, mem_software, beq_iff_eq, and_assoc]
  constructor
  · rintro ⟨h1, h2, h3⟩; exact ⟨h1, h2, (elfName_inj h3).symm⟩
  · rintro ⟨h1, h2, rfl⟩; exact ⟨h1, h2, rfl⟩

theorem members_nodup (c : Comp) (g : String) : ((members c g).map Prod.fst).Nodup :=
  (software_nodup c).sublist (List.Sublist.map _ List.filter_sublist)

/-- **C111 (images).** Whatever the order in which the set of groups is gone through: every software
instance is put into exactly one image, once, that of its address space; images hold nothing else
and none is empty; no two images have the same name; and the images are handed to the capDL linker
together with the keys of their address spaces. -/
theorem one_image (c : Comp) (gs : List String) (hgs : Enumerates gs (spaces c)) :
    (∀ k i, At c k i → i.hardware = false →
      ∃ g ∈ gs, (members c g).count (k, i) = 1 ∧ ∀ g' ∈ gs, (k, i) ∈ members c g' → g' = g ∧ g' = i.space) ∧
    (∀ g ∈ gs, members c g ≠ [] ∧ ∀ k i, (k, i) ∈ members c g → At c k i ∧ i.hardware = false ∧ i.space = g) ∧
    (capdlElfs gs).Nodup ∧
    (capdlElfs gs).zip (keyNames gs) = gs.map fun g => (g ++ "_group_bin", g) := by
  refine ⟨?_, ?_, ?_, ?_⟩
  · intro k i hi hh
    have hm : (k, i) ∈ members c i.space := (mem_members ..).2 ⟨hi, hh, rfl⟩
    refine ⟨i.space, (hgs.2 _).2 (List.mem_map.2 ⟨(k, i), (mem_software ..).2 ⟨hi, hh⟩, rfl⟩), ?_, ?_⟩
    · exact List.count_eq_one_of_mem (List.Nodup.of_map _ (members_nodup c _)) hm
    · intro g' _ h'
      have := ((mem_members ..).1 h').2.2
      exact ⟨this.symm, this.symm⟩
  · intro g hg
    constructor
    · obtain ⟨⟨k, i⟩, hx, he⟩ := List.mem_map.1 ((hgs.2 g).1 hg)
      obtain ⟨h1, h2⟩ := (mem_software ..).1 hx
      exact List.ne_nil_of_mem ((mem_members c g k i).2 ⟨h1, h2, he⟩)
    · intro k i h; exact (mem_members ..).1 h
  · exact hgs.1.map_on (fun a _ b _ h => elfName_inj h)
  · clear hgs
    simp only [capdlElfs, keyNames]
    induction gs with
    | nil => rfl
    | cons g gs ih => simp only [List.map_cons, List.zip_cons_cons, ih, elfName]

/-- **C111 (linking, part).** An instance is linked as an object with relocations, its constructors
collected and without symbols for the thread local storage, exactly if its image is linked from
several instances; otherwise its image is a copy of the instance. Missing: the hypothesis that no
hardware component shares the address space, see `hardware_breaks_image`. -/
theorem relocatable_iff_partial (c : Comp) (k : Nat) (i : Inst) (rump : Bool) (hi : At c k i)
    (hs : i.hardware = false) (hw : ∀ k' i', At c k' i' → i'.space = i.space → i'.hardware = false) :
    (grouped c k i = true ↔ (members c i.space).length > 1) ∧
    (collectsConstructors c k i = true ↔ (members c i.space).length > 1) ∧
    (definesTls c k i rump = true ↔ (members c i.space).length = 1 ∧ rump = false) := by
  have hm : (k, i) ∈ members c i.space := (mem_members ..).2 ⟨hi, hs, rfl⟩
  have key : grouped c k i = true ↔ (members c i.space).length > 1 := by
    simp only [grouped, hs, Bool.not_false, Bool.true_and, List.any_eq_true, Bool.and_eq_true, bne_iff_ne,
      ne_eq, beq_iff_eq, Prod.exists]
    constructor
    · rintro ⟨k', i', h1, h2, h3⟩
      rw [mem_numbered] at h1
      have hm' : (k', i') ∈ members c i.space := (mem_members ..).2 ⟨h1, hw k' i' h1 h3, h3⟩
      cases hl : members c i.space with
      | nil => rw [hl] at hm; simp at hm
      | cons x xs =>
        cases xs with
        | cons y ys => simp
        | nil =>
          rw [hl] at hm hm'
          simp only [List.mem_singleton] at hm hm'
          have := hm.trans hm'.symm
          simp only [Prod.mk.injEq] at this
          exact absurd this.1 h2
    · intro hl
      have hn := members_nodup c i.space
      cases hxs : members c i.space with
      | nil => rw [hxs] at hl; simp at hl
      | cons x xs =>
        cases xs with
        | nil => rw [hxs] at hl; simp at hl
        | cons y ys =>
          rw [hxs] at hn
          simp only [List.map_cons, List.nodup_cons, List.mem_cons, not_or] at hn
          obtain ⟨kx, ix⟩ := x
          obtain ⟨ky, iy⟩ := y
          have hx : (kx, ix) ∈ members c i.space := by rw [hxs]; simp
          have hy : (ky, iy) ∈ members c i.space := by rw [hxs]; simp
          obtain ⟨ax, _, sx⟩ := (mem_members ..).1 hx
          obtain ⟨ay, _, sy⟩ := (mem_members ..).1 hy
          by_cases h : k = kx
          · exact ⟨ky, iy, (mem_numbered ..).2 ay, fun e => hn.1.1 (h.symm.trans e), sy⟩
          · exact ⟨kx, ix, (mem_numbered ..).2 ax, h, sx⟩
  have hpos : (members c i.space).length ≥ 1 := List.length_pos_iff.2 (List.ne_nil_of_mem hm)
  refine ⟨key, key, ?_⟩
  simp only [definesTls, Bool.and_eq_true, Bool.not_eq_true', ← Bool.not_eq_true, key]
  constructor
  · rintro ⟨h1, h2⟩; exact ⟨by omega, by simpa using h2⟩
  · rintro ⟨h1, h2⟩; exact ⟨by omega, by simpa using h2⟩

/-- **C111 (ends).** The templates of a direct connection are accepted exactly if all its ends are in the
same address space. -/
theorem renders_iff (spaceOf : Nat → String) (n : Conn) :
    renders spaceOf n = true ↔
      ∀ e e', e ∈ n.fromEnds ∨ e ∈ n.toEnds → e' ∈ n.fromEnds ∨ e' ∈ n.toEnds →
        spaceOf e.inst = spaceOf e'.inst := by
  simp only [renders, rendersEnd, List.all_eq_true, List.mem_append, Bool.not_eq_true', bne_eq_false_iff_eq]
  constructor
  · intro h e e' he he'; exact h e' he' e he
  · intro h e he e' he'; exact h e' e he' he

/-! ## The options -/

/-- The options of an instance for its connections, were no interface left out. -/
def pureConn (k : Nat) (cs : List Conn) : List Opt :=
  cs.flatMap fun n => if direct n then
    (n.fromEnds.filter fun e => e.inst == k).flatMap (fromOpts n) ++
      (n.toEnds.filter fun e => e.inst == k).flatMap (toOpts n) else []

/-- What is added to `instancelist` for an instance. -/
def keysOf (x : Numbered) (cs : List Conn) : List String :=
  cs.flatMap fun n => if direct n then (n.toEnds.filter fun e => e.inst == x.1).map (key x.2) else []

/-- All options of an instance, were no interface left out. -/
def pureOpts (c : Comp) (k : Nat) (i : Inst) : List Opt :=
  .keep "" :: .redefine "_camkes_start" (start i) :: pureConn k c.conns

theorem toLoop_pure (k : Nat) (i : Inst) (n : Conn) (es : List End) (seen : List String)
    (h : ((es.filter fun e => e.inst == k).map (key i) ++ seen).Nodup) :
    toLoop k i n es seen = ((es.filter fun e => e.inst == k).flatMap (toOpts n),
      ((es.filter fun e => e.inst == k).map (key i)).reverse ++ seen) := by
  induction es generalizing seen with
  | nil => rfl
  | cons e es ih =>
    by_cases he : (e.inst == k) = true
    · simp only [List.filter_cons, he, ↓reduceIte, List.map_cons, List.cons_append, List.nodup_cons] at h
      have hns : seen.contains (key i e) = false := by
        simp only [List.contains_eq_mem, decide_eq_false_iff_not]
        exact fun hm => h.1 (List.mem_append_right _ hm)
      rw [toLoop]
      simp only [he, ↓reduceIte, hns, Bool.false_eq_true]
      rw [ih (key i e :: seen) ?_]
      · simp [he]
      · refine (List.perm_middle.nodup_iff).2 ?_
        exact List.nodup_cons.2 h
    · simp only [List.filter_cons, he, Bool.false_eq_true, ↓reduceIte] at h ⊢
      rw [toLoop]
      simp only [he, Bool.false_eq_true, ↓reduceIte]
      exact ih seen h

theorem connLoop_pure (x : Numbered) (cs : List Conn) (seen : List String)
    (h : (keysOf x cs ++ seen).Nodup) :
    ∃ seen', connLoop x.1 x.2 cs seen = (pureConn x.1 cs, seen') ∧ seen'.Perm (keysOf x cs ++ seen) := by
  induction cs generalizing seen with
  | nil => exact ⟨seen, rfl, List.Perm.refl _⟩
  | cons n cs ih =>
    by_cases hd : direct n = true
    · simp only [keysOf, List.flatMap_cons, hd, ↓reduceIte] at h
      change (_ ++ keysOf x cs ++ seen).Nodup at h
      have hp : ((n.toEnds.filter fun e => e.inst == x.1).map (key x.2) ++ keysOf x cs ++ seen).Perm
          (keysOf x cs ++ (((n.toEnds.filter fun e => e.inst == x.1).map (key x.2)).reverse ++ seen)) := by
        rw [← List.append_assoc]
        refine List.Perm.append_right _ ?_
        refine List.perm_append_comm.trans ?_
        exact List.Perm.append_left _ (List.reverse_perm _).symm
      have h1 : ((n.toEnds.filter fun e => e.inst == x.1).map (key x.2) ++ seen).Nodup := by
        refine h.sublist ?_
        exact List.Sublist.append (List.sublist_append_left _ _) (List.Sublist.refl _)
      obtain ⟨s', he, hs'⟩ := ih _ (hp.nodup_iff.1 h)
      refine ⟨s', ?_, ?_⟩
      · rw [connLoop]
        simp only [hd, ↓reduceIte]
        rw [toLoop_pure _ _ _ _ _ h1]
        simp only [he]
        simp [pureConn, hd]
      · refine hs'.trans (hp.symm.trans ?_)
        simp [keysOf, hd]
    · obtain ⟨s', he, hs'⟩ := ih seen (by simpa [keysOf, hd] using h)
      refine ⟨s', ?_, by simpa [keysOf, hd] using hs'⟩
      rw [connLoop]
      simp [hd, he, pureConn]

theorem optLoop_pure (c : Comp) (xs : List Numbered) (seen : List String)
    (h : (xs.flatMap (fun x => keysOf x c.conns) ++ seen).Nodup) :
    optLoop c xs seen = xs.map fun x => (x.1, pureOpts c x.1 x.2) := by
  induction xs generalizing seen with
  | nil => rfl
  | cons x xs ih =>
    rw [List.flatMap_cons] at h
    have h1 : (keysOf x c.conns ++ seen).Nodup := by
      refine h.sublist ?_
      exact List.Sublist.append (List.sublist_append_left _ _) (List.Sublist.refl _)
    obtain ⟨s', he, hs'⟩ := connLoop_pure x c.conns seen h1
    have h2 : (xs.flatMap (fun x => keysOf x c.conns) ++ s').Nodup := by
      have : (xs.flatMap (fun x => keysOf x c.conns) ++ s').Perm
          (keysOf x c.conns ++ xs.flatMap (fun x => keysOf x c.conns) ++ seen) := by
        refine (List.Perm.append_left _ hs').trans ?_
        rw [← List.append_assoc]
        exact List.Perm.append_right _ List.perm_append_comm
      exact this.nodup_iff.2 h
    rw [optLoop]
    simp only [instOpts, he, List.map_cons, ih s' h2]
    rfl

theorem direct_iff (n : Conn) : direct n = true ↔ n.type = "seL4DirectCall" := by
  simp [direct]

theorem key_list (i : Inst) (e : End) : (key i e).toList = i.name.toList ++ '_' :: e.iface.toList := by
  simp [key]

theorem keys_nodup (c : Comp) (hc : Checked c) (hu : Unambiguous c) :
    ((software c).flatMap (fun x => keysOf x c.conns)).Nodup := by
  have hconn : c.conns.Nodup := hc.conns.imp (fun h e => h (by rw [e]))
  have mem : ∀ k i s, s ∈ keysOf (k, i) c.conns → ∃ n f t, Direct c n f t ∧ t.inst = k ∧ s = key i t := by
    intro k i s hs
    obtain ⟨n, hn, hs⟩ := List.mem_flatMap.1 hs
    split at hs
    · rename_i hd
      obtain ⟨f, t, h1, h2⟩ := hc.single n hn ((direct_iff n).1 hd)
      obtain ⟨e, he, rfl⟩ := List.mem_map.1 hs
      rw [h2] at he
      simp only [List.mem_filter, List.mem_singleton, beq_iff_eq] at he
      obtain ⟨rfl, hk⟩ := he
      exact ⟨n, f, e, ⟨hn, (direct_iff n).1 hd, h1, h2⟩, hk, rfl⟩
    · simp at hs
  rw [List.nodup_flatMap]
  constructor
  · rintro ⟨k, i⟩ hx
    rw [mem_software] at hx
    unfold keysOf
    rw [List.nodup_flatMap]
    constructor
    · intro n hn
      split
      · rename_i hd
        obtain ⟨f, t, h1, h2⟩ := hc.single n hn ((direct_iff n).1 hd)
        rw [h2, List.filter_cons]
        split <;> simp
      · simp
    · refine List.Pairwise.imp_of_mem ?_ hconn
      intro n n' hn hn' hne s hs hs'
      have get : ∀ n ∈ c.conns, s ∈ (if direct n = true then
          ((n.toEnds.filter fun e => e.inst == k).map (key i)) else []) →
          ∃ f t, Direct c n f t ∧ t.inst = k ∧ s = key i t := by
        intro n hn hs
        split at hs
        · rename_i hd
          obtain ⟨f, t, h1, h2⟩ := hc.single n hn ((direct_iff n).1 hd)
          obtain ⟨e, he, rfl⟩ := List.mem_map.1 hs
          rw [h2] at he
          simp only [List.mem_filter, List.mem_singleton, beq_iff_eq] at he
          obtain ⟨rfl, hk⟩ := he
          exact ⟨f, e, ⟨hn, (direct_iff n).1 hd, h1, h2⟩, hk, rfl⟩
        · simp at hs
      obtain ⟨f, t, hD, hk, he⟩ := get n hn hs
      obtain ⟨f', t', hD', hk', he'⟩ := get n' hn' hs'
      refine hne (hu.keys n f t n' f' t' i i hD hD' (hk ▸ hx.1) (hk' ▸ hx.1) ?_)
      rw [← key_list, ← key_list, ← he, ← he']
  · have := List.Nodup.of_map _ (software_nodup c)
    refine List.Pairwise.imp_of_mem ?_ this
    rintro ⟨k, i⟩ ⟨k', i'⟩ hx hx' hne s hs hs'
    rw [mem_software] at hx hx'
    obtain ⟨n, f, t, hD, hk, he⟩ := mem k i s hs
    obtain ⟨n', f', t', hD', hk', he'⟩ := mem k' i' s hs'
    have hnn := hu.keys n f t n' f' t' i i' hD hD' (hk ▸ hx.1) (hk' ▸ hx'.1)
      (by rw [← key_list, ← key_list, ← he, ← he'])
    subst hnn
    have ht : t = t' := by
      have := hD.2.2.2.symm.trans hD'.2.2.2
      simpa using this
    subst ht
    apply hne
    have hkk : k = k' := hk.symm.trans hk'
    subst hkk
    have := hx.1.symm.trans hx'.1
    simp only [Option.some.injEq] at this
    rw [this]

theorem lookup_map_mem {β : Type} (xs : List Numbered) (f : Numbered → β)
    (h : (xs.map Prod.fst).Nodup) (x : Numbered) (hx : x ∈ xs) :
    (xs.map fun x => (x.1, f x)).lookup x.1 = some (f x) := by
  induction xs with
  | nil => simp at hx
  | cons y ys ih =>
    simp only [List.map_cons, List.nodup_cons] at h
    rcases List.mem_cons.1 hx with rfl | hx
    · simp [List.lookup_cons]
    · have hne : x.1 ≠ y.1 := fun e => h.1 (e ▸ List.mem_map_of_mem hx)
      have : (x.1 == y.1) = false := by simpa using hne
      simp only [List.map_cons, List.lookup_cons, this]
      exact ih h.2 hx

theorem opts_pure (c : Comp) (hc : Checked c) (hu : Unambiguous c) (k : Nat) (i : Inst)
    (hi : At c k i) (hs : i.hardware = false) : opts c k = pureOpts c k i := by
  unfold opts
  rw [optLoop_pure c _ [] (by simpa using keys_nodup c hc hu)]
  have := lookup_map_mem (software c) (fun x => pureOpts c x.1 x.2) (software_nodup c) (k, i)
    ((mem_software ..).2 ⟨hi, hs⟩)
  simp only [this, Option.getD_some]

/-! ## Redefinitions and symbols that are kept -/

theorem mem_redefs (os : List Opt) (a b : String) : (a, b) ∈ redefs os ↔ Opt.redefine a b ∈ os := by
  induction os with
  | nil => simp [redefs]
  | cons o os ih => cases o <;> simp [redefs, ih]

theorem mem_keeps (os : List Opt) (a : String) : a ∈ keeps os ↔ Opt.keep a ∈ os := by
  induction os with
  | nil => simp [keeps]
  | cons o os ih => cases o <;> simp [keeps, ih]

theorem redefs_append (os os' : List Opt) : redefs (os ++ os') = redefs os ++ redefs os' := by
  induction os with
  | nil => rfl
  | cons o os ih => cases o <;> simp [redefs, ih]

theorem redefs_flatMap {α : Type} (l : List α) (f : α → List Opt) :
    redefs (l.flatMap f) = l.flatMap fun a => redefs (f a) := by
  induction l with
  | nil => rfl
  | cons a l ih => simp [redefs_append, ih]

/-- The redefinitions for an end. -/
def endRedefs (n : Conn) (e : End) : List (String × String) :=
  e.methods.map fun m => (local_ e m, shared n m)

theorem redefs_from (n : Conn) (e : End) : redefs (fromOpts n e) = endRedefs n e := by
  unfold fromOpts endRedefs
  induction e.methods with
  | nil => rfl
  | cons m ms ih => simp [redefs, ih]

theorem redefs_to (n : Conn) (e : End) : redefs (toOpts n e) = endRedefs n e := by
  unfold toOpts endRedefs
  induction e.methods with
  | nil => rfl
  | cons m ms ih => simp [redefs, ih]

theorem cname_iff (e : End) (m s : String) : CName e m s ↔ s = local_ e m := by
  unfold CName local_
  constructor
  · intro h; apply String.toList_inj.1; simp [h]
  · rintro rfl; simp

theorem local_inj {e : End} {m m' : String} (h : local_ e m = local_ e m') : m = m' := by
  have h1 := congrArg String.toList h
  simp only [local_, String.toList_append, List.append_assoc, List.append_cancel_left_eq] at h1
  exact String.toList_inj.1 h1

theorem str_connection : "camkes connection ".toList =
    ['c', 'a', 'm', 'k', 'e', 's', ' ', 'c', 'o', 'n', 'n', 'e', 'c', 't', 'i', 'o', 'n', ' '] := by
  decide +kernel

theorem str_camkes : "camkes ".toList = ['c', 'a', 'm', 'k', 'e', 's', ' '] := by decide +kernel

theorem str_start : " _camkes_start".toList =
    [' ', '_', 'c', 'a', 'm', 'k', 'e', 's', '_', 's', 't', 'a', 'r', 't'] := by decide +kernel

theorem str_conn : "connection".toList = ['c', 'o', 'n', 'n', 'e', 'c', 't', 'i', 'o', 'n'] := by
  decide +kernel

theorem toList_append4 (a b c d : String) :
    (a ++ (b ++ c ++ d)).toList = a.toList ++ (b.toList ++ (c.toList ++ d.toList)) := by simp

theorem toList_append3 (a b c : String) :
    (a ++ (b ++ c)).toList = a.toList ++ (b.toList ++ c.toList) := by simp

theorem str_underscore : "_".toList = ['_'] := by decide +kernel

theorem shared_list (n : Conn) (m : String) : (shared n m).toList =
    ['c', 'a', 'm', 'k', 'e', 's', ' ', 'c', 'o', 'n', 'n', 'e', 'c', 't', 'i', 'o', 'n', ' '] ++
      (n.name.toList ++ '_' :: m.toList) := by
  unfold shared
  rw [toList_append4, str_connection, str_underscore]
  rfl

theorem start_list (i : Inst) : (start i).toList = ['c', 'a', 'm', 'k', 'e', 's', ' '] ++ (i.name.toList ++
    [' ', '_', 'c', 'a', 'm', 'k', 'e', 's', '_', 's', 't', 'a', 'r', 't']) := by
  unfold start
  rw [toList_append3, str_camkes, str_start]

theorem shared_inj {n n' : Conn} {m m' : String} (h : shared n m = shared n' m') :
    n.name.toList ++ '_' :: m.toList = n'.name.toList ++ '_' :: m'.toList := by
  have h1 := congrArg String.toList h
  rw [shared_list, shared_list] at h1
  exact List.append_cancel_left h1

theorem blank_shared (n : Conn) (m : String) : ' ' ∈ (shared n m).toList := by
  rw [shared_list]; simp

/-- Two splits of a list at a blank, the first parts without blanks. -/
theorem split_blank {a b c d : List Char} (ha : ' ' ∉ a) (hc : ' ' ∉ c)
    (h : a ++ ' ' :: b = c ++ ' ' :: d) : a = c ∧ b = d := by
  induction a generalizing c with
  | nil =>
    cases c with
    | nil => simpa using h
    | cons y c => simp only [List.nil_append, List.cons_append, List.cons.injEq] at h
                  exact absurd (by rw [← h.1]; exact List.mem_cons_self) hc
  | cons x a ih =>
    cases c with
    | nil => simp only [List.nil_append, List.cons_append, List.cons.injEq] at h
             exact absurd (by rw [h.1]; exact List.mem_cons_self) ha
    | cons y c =>
      simp only [List.cons_append, List.cons.injEq] at h
      simp only [List.mem_cons, not_or] at ha hc
      obtain ⟨h1, h2⟩ := ih ha.2 hc.2 h.2
      exact ⟨by rw [h.1, h1], h2⟩

theorem start_ne_shared {i : Inst} (hi : ' ' ∉ i.name.toList ∧ i.name ≠ "connection") (n : Conn)
    (m : String) : start i ≠ shared n m := by
  intro h
  have h1 := congrArg String.toList h
  rw [start_list, shared_list] at h1
  simp only [List.cons_append, List.nil_append, List.cons.injEq, true_and] at h1
  have h2 := split_blank (c := ['c', 'o', 'n', 'n', 'e', 'c', 't', 'i', 'o', 'n']) hi.1 (by decide)
    (by simpa using h1)
  exact hi.2 (String.toList_inj.1 (h2.1.trans str_conn.symm))

theorem start_inj {i i' : Inst} (h : start i = start i') : i.name = i'.name := by
  have h1 := congrArg String.toList h
  rw [start_list, start_list] at h1
  have h1 := List.append_cancel_right (List.append_cancel_left h1)
  exact String.toList_inj.1 h1

/-- The end of a direct connection at an instance. -/
theorem mem_pureConn (c : Comp) (hc : Checked c) (k : Nat) (o : Opt) :
    o ∈ pureConn k c.conns ↔ ∃ n f t, Direct c n f t ∧
      ((f.inst = k ∧ o ∈ fromOpts n f) ∨ (t.inst = k ∧ o ∈ toOpts n t)) := by
  simp only [pureConn, List.mem_flatMap]
  constructor
  · rintro ⟨n, hn, ho⟩
    split at ho
    · rename_i hd
      obtain ⟨f, t, h1, h2⟩ := hc.single n hn ((direct_iff n).1 hd)
      refine ⟨n, f, t, ⟨hn, (direct_iff n).1 hd, h1, h2⟩, ?_⟩
      simp only [h1, h2, List.mem_append, List.mem_flatMap, List.mem_filter, List.mem_singleton, beq_iff_eq] at ho
      rcases ho with ⟨e, ⟨rfl, hk⟩, ho⟩ | ⟨e, ⟨rfl, hk⟩, ho⟩
      · exact .inl ⟨hk, ho⟩
      · exact .inr ⟨hk, ho⟩
    · simp at ho
  · rintro ⟨n, f, t, ⟨hn, hd, h1, h2⟩, ho⟩
    refine ⟨n, hn, ?_⟩
    rw [if_pos ((direct_iff n).2 hd)]
    simp only [h1, h2, List.mem_append, List.mem_flatMap, List.mem_filter, List.mem_singleton, beq_iff_eq]
    rcases ho with ⟨hk, ho⟩ | ⟨hk, ho⟩
    · exact .inl ⟨f, ⟨rfl, hk⟩, ho⟩
    · exact .inr ⟨t, ⟨rfl, hk⟩, ho⟩

theorem mem_pure_redefs (c : Comp) (hc : Checked c) (k : Nat) (i : Inst) (a b : String) :
    (a, b) ∈ redefs (pureOpts c k i) ↔ (a = "_camkes_start" ∧ b = start i) ∨
      ∃ n f t e m, Direct c n f t ∧ (e = f ∨ e = t) ∧ e.inst = k ∧ m ∈ e.methods ∧
        a = local_ e m ∧ b = shared n m := by
  have hf : ∀ n e, Opt.redefine a b ∈ fromOpts n e ↔ ∃ m ∈ e.methods, a = local_ e m ∧ b = shared n m := by
    intro n e
    simp only [fromOpts, List.mem_map, Opt.redefine.injEq]
    exact ⟨fun ⟨m, h, h1, h2⟩ => ⟨m, h, h1.symm, h2.symm⟩, fun ⟨m, h, h1, h2⟩ => ⟨m, h, h1.symm, h2.symm⟩⟩
  have ht : ∀ n e, Opt.redefine a b ∈ toOpts n e ↔ ∃ m ∈ e.methods, a = local_ e m ∧ b = shared n m := by
    intro n e
    simp [toOpts]
  rw [mem_redefs]
  simp only [pureOpts, List.mem_cons, Opt.redefine.injEq, reduceCtorEq, false_or, mem_pureConn c hc, hf, ht]
  refine or_congr Iff.rfl ?_
  constructor
  · rintro ⟨n, f, t, hD, ⟨hk, m, hm, h1, h2⟩ | ⟨hk, m, hm, h1, h2⟩⟩
    · exact ⟨n, f, t, f, m, hD, .inl rfl, hk, hm, h1, h2⟩
    · exact ⟨n, f, t, t, m, hD, .inr rfl, hk, hm, h1, h2⟩
  · rintro ⟨n, f, t, e, m, hD, rfl | rfl, hk, hm, h1, h2⟩
    · exact ⟨n, _, t, hD, .inl ⟨hk, m, hm, h1, h2⟩⟩
    · exact ⟨n, f, _, hD, .inr ⟨hk, m, hm, h1, h2⟩⟩

theorem mem_pure_keeps (c : Comp) (hc : Checked c) (k : Nat) (i : Inst) (a : String) :
    a ∈ keeps (pureOpts c k i) ↔ a = "" ∨
      ∃ n f t m, Direct c n f t ∧ t.inst = k ∧ m ∈ t.methods ∧ a = shared n m := by
  rw [mem_keeps]
  simp only [pureOpts, List.mem_cons, Opt.keep.injEq, reduceCtorEq, false_or, mem_pureConn c hc]
  refine or_congr Iff.rfl ?_
  constructor
  · rintro ⟨n, f, t, hD, ⟨hk, ho⟩ | ⟨hk, ho⟩⟩
    · simp [fromOpts] at ho
    · simp only [toOpts, List.mem_flatMap, List.mem_cons, reduceCtorEq, false_or, Opt.keep.injEq,
        List.not_mem_nil, or_false] at ho
      obtain ⟨m, hm, rfl⟩ := ho
      exact ⟨n, f, t, m, hD, hk, hm, rfl⟩
  · rintro ⟨n, f, t, m, hD, hk, hm, rfl⟩
    refine ⟨n, f, t, hD, .inr ⟨hk, ?_⟩⟩
    simp only [toOpts, List.mem_flatMap, List.mem_cons, reduceCtorEq, false_or, Opt.keep.injEq,
      List.not_mem_nil, or_false]
    exact ⟨m, hm, rfl⟩

/-- The redefinitions of a connection at an instance. -/
theorem redefs_conn (c : Comp) (k : Nat) (n : Conn) (f t : End) (hD : Direct c n f t) :
    redefs (if direct n then
      (n.fromEnds.filter fun e => e.inst == k).flatMap (fromOpts n) ++
        (n.toEnds.filter fun e => e.inst == k).flatMap (toOpts n) else []) =
      (if f.inst = k then endRedefs n f else []) ++ (if t.inst = k then endRedefs n t else []) := by
  rw [if_pos ((direct_iff n).2 hD.2.1), hD.2.2.1, hD.2.2.2, redefs_append, redefs_flatMap, redefs_flatMap]
  congr 1
  · by_cases h : f.inst = k <;> simp [h, redefs_from]
  · by_cases h : t.inst = k <;> simp [h, redefs_to]

theorem shared_inj_m {n : Conn} {m m' : String} (h : shared n m = shared n m') : m = m' := by
  have := shared_inj h
  simp only [List.append_cancel_left_eq, List.cons.injEq, true_and] at this
  exact String.toList_inj.1 this

/-- No symbol is redefined twice, and none is the target of two redefinitions. -/
theorem redefs_nodup (c : Comp) (hc : Checked c) (hu : Unambiguous c) (k : Nat) (i : Inst)
    (hi : At c k i) :
    ((redefs (pureOpts c k i)).map Prod.fst).Nodup ∧ ((redefs (pureOpts c k i)).map Prod.snd).Nodup := by
  have hconn : c.conns.Nodup := hc.conns.imp (fun h e => h (by rw [e]))
  have hmem := mem_pure_redefs c hc k i
  have heq : redefs (pureOpts c k i) = ("_camkes_start", start i) :: redefs (pureConn k c.conns) := rfl
  have hrest : ∀ a b, (a, b) ∈ redefs (pureConn k c.conns) → ∃ n f t e m, Direct c n f t ∧ (e = f ∨ e = t) ∧
      e.inst = k ∧ m ∈ e.methods ∧ a = local_ e m ∧ b = shared n m := by
    intro a b h
    rw [mem_redefs, mem_pureConn c hc] at h
    obtain ⟨n, f, t, hD, ⟨hk, ho⟩ | ⟨hk, ho⟩⟩ := h
    · rw [← mem_redefs, redefs_from] at ho
      obtain ⟨m, hm, he⟩ := List.mem_map.1 ho
      simp only [Prod.mk.injEq] at he
      exact ⟨n, f, t, f, m, hD, .inl rfl, hk, hm, he.1.symm, he.2.symm⟩
    · rw [← mem_redefs, redefs_to] at ho
      obtain ⟨m, hm, he⟩ := List.mem_map.1 ho
      simp only [Prod.mk.injEq] at he
      exact ⟨n, f, t, t, m, hD, .inr rfl, hk, hm, he.1.symm, he.2.symm⟩
  have inconn : ∀ n ∈ c.conns, ∀ p : String × String, p ∈ redefs (if direct n then
      (n.fromEnds.filter fun e => e.inst == k).flatMap (fromOpts n) ++
        (n.toEnds.filter fun e => e.inst == k).flatMap (toOpts n) else []) →
      ∃ f t e m, Direct c n f t ∧ (e = f ∨ e = t) ∧ e.inst = k ∧ m ∈ e.methods ∧ p = (local_ e m, shared n m) := by
    intro n hn p hp
    by_cases hd : direct n = true
    · obtain ⟨f, t, h1, h2⟩ := hc.single n hn ((direct_iff n).1 hd)
      have hD : Direct c n f t := ⟨hn, (direct_iff n).1 hd, h1, h2⟩
      rw [redefs_conn c k n f t hD] at hp
      rcases List.mem_append.1 hp with hp | hp
      · split at hp
        · rename_i hk
          obtain ⟨m, hm, he⟩ := List.mem_map.1 hp
          exact ⟨f, t, f, m, hD, .inl rfl, hk, hm, he.symm⟩
        · simp at hp
      · split at hp
        · rename_i hk
          obtain ⟨m, hm, he⟩ := List.mem_map.1 hp
          exact ⟨f, t, t, m, hD, .inr rfl, hk, hm, he.symm⟩
        · simp at hp
    · simp [hd, redefs] at hp
  have methods_mem : ∀ n f t e m, Direct c n f t → (e = f ∨ e = t) → m ∈ e.methods → m ∈ f.methods := by
    intro n f t e m hD he hm
    rcases he with rfl | rfl
    · exact hm
    · rw [(hc.methods n f _ hD).1]; exact hm
  have each : ∀ n ∈ c.conns, ((redefs (if direct n then
      (n.fromEnds.filter fun e => e.inst == k).flatMap (fromOpts n) ++
        (n.toEnds.filter fun e => e.inst == k).flatMap (toOpts n) else [])).map Prod.fst).Nodup ∧
      ((redefs (if direct n then
      (n.fromEnds.filter fun e => e.inst == k).flatMap (fromOpts n) ++
        (n.toEnds.filter fun e => e.inst == k).flatMap (toOpts n) else [])).map Prod.snd).Nodup := by
    intro n hn
    by_cases hd : direct n = true
    · obtain ⟨f, t, h1, h2⟩ := hc.single n hn ((direct_iff n).1 hd)
      have hD : Direct c n f t := ⟨hn, (direct_iff n).1 hd, h1, h2⟩
      rw [redefs_conn c k n f t hD]
      have nd : ∀ e, e.methods.Nodup → ((endRedefs n e).map Prod.fst).Nodup ∧ ((endRedefs n e).map Prod.snd).Nodup := by
        intro e he
        simp only [endRedefs, List.map_map]
        exact ⟨he.map_on fun a _ b _ h => local_inj h, he.map_on fun a _ b _ h => shared_inj_m h⟩
      have hap := hc.apart n f t hD
      have hms := hc.methods n f t hD
      by_cases hf : f.inst = k
      · have ht : t.inst ≠ k := fun e => hap (hf.trans e.symm)
        simpa [hf, ht] using nd f hms.2
      · by_cases ht : t.inst = k
        · simpa [hf, ht] using nd t (hms.1 ▸ hms.2)
        · simp [hf, ht]
    · simp [hd, redefs]
  rw [heq]
  simp only [List.map_cons, List.nodup_cons]
  refine ⟨⟨?_, ?_⟩, ?_, ?_⟩
  · intro h
    obtain ⟨⟨a, b⟩, h, e⟩ := List.mem_map.1 h
    obtain ⟨n, f, t, e', m, hD, he, _, hm, h1, _⟩ := hrest a b h
    simp only at e
    exact hu.entry n f t e' m hD he hm ((cname_iff ..).2 (e ▸ h1))
  · simp only [pureConn, redefs_flatMap, List.map_flatMap]
    rw [List.nodup_flatMap]
    refine ⟨fun n hn => (each n hn).1, List.Pairwise.imp_of_mem ?_ hconn⟩
    intro n n' hn hn' hne s hs hs'
    obtain ⟨p, hp, rfl⟩ := List.mem_map.1 hs
    obtain ⟨p', hp', he⟩ := List.mem_map.1 hs'
    obtain ⟨f, t, e, m, hD, he1, hk, hm, rfl⟩ := inconn n hn p hp
    obtain ⟨f', t', e', m', hD', he1', hk', hm', rfl⟩ := inconn n' hn' p' hp'
    simp only at he
    exact hne (hu.cnames n f t n' f' t' e e' m m' (local_ e m) hD hD' he1 he1' (hk.trans hk'.symm) hm hm'
      ((cname_iff ..).2 rfl) ((cname_iff ..).2 he.symm)).1
  · intro h
    obtain ⟨⟨a, b⟩, h, e⟩ := List.mem_map.1 h
    obtain ⟨n, f, t, e', m, hD, he, _, hm, _, h1⟩ := hrest a b h
    simp only at e
    exact start_ne_shared (hc.words k i hi) n m (e.symm.trans h1)
  · simp only [pureConn, redefs_flatMap, List.map_flatMap]
    rw [List.nodup_flatMap]
    refine ⟨fun n hn => (each n hn).2, List.Pairwise.imp_of_mem ?_ hconn⟩
    intro n n' hn hn' hne s hs hs'
    obtain ⟨p, hp, rfl⟩ := List.mem_map.1 hs
    obtain ⟨p', hp', he⟩ := List.mem_map.1 hs'
    obtain ⟨f, t, e, m, hD, he1, hk, hm, rfl⟩ := inconn n hn p hp
    obtain ⟨f', t', e', m', hD', he1', hk', hm', rfl⟩ := inconn n' hn' p' hp'
    simp only at he
    exact hne (hu.shared n f t n' f' t' m m' hD hD' (methods_mem n f t e m hD he1 hm)
      (methods_mem n' f' t' e' m' hD' he1' hm') (shared_inj he.symm)).1

/-! ## Renaming -/

theorem lookup_of_mem {β : Type} (l : List (String × β)) (h : (l.map Prod.fst).Nodup) (a : String) (b : β)
    (hm : (a, b) ∈ l) : l.lookup a = some b := by
  induction l with
  | nil => simp at hm
  | cons x l ih =>
    obtain ⟨a', b'⟩ := x
    simp only [List.map_cons, List.nodup_cons] at h
    rcases List.mem_cons.1 hm with he | hm
    · simp only [Prod.mk.injEq] at he
      obtain ⟨rfl, rfl⟩ := he
      simp [List.lookup_cons]
    · have hne : a ≠ a' := fun e => h.1 (e ▸ List.mem_map.2 ⟨(a, b), hm, rfl⟩)
      have : (a == a') = false := by simpa using hne
      rw [List.lookup_cons, this]
      exact ih h.2 hm

theorem mem_of_lookup {β : Type} (l : List (String × β)) (a : String) (b : β)
    (h : l.lookup a = some b) : (a, b) ∈ l := by
  induction l with
  | nil => simp at h
  | cons x l ih =>
    obtain ⟨a', b'⟩ := x
    rw [List.lookup_cons] at h
    split at h
    · rename_i he
      simp only [beq_iff_eq] at he
      simp only [Option.some.injEq] at h
      simp [he, h]
    · exact List.mem_cons_of_mem _ (ih h)

theorem rename_cases (rs : List (String × String)) (s : String) :
    (s, rename rs s) ∈ rs ∨ (rename rs s = s ∧ s ∉ rs.map Prod.fst) := by
  unfold rename
  cases h : rs.lookup s with
  | some b => exact .inl (mem_of_lookup _ _ _ h)
  | none =>
    refine .inr ⟨rfl, fun hm => ?_⟩
    obtain ⟨⟨a, b⟩, h1, rfl⟩ := List.mem_map.1 hm
    rw [List.lookup_eq_none_iff] at h
    have := h _ h1
    simp at this

theorem rename_mem (rs : List (String × String)) (h : (rs.map Prod.fst).Nodup) (a b : String)
    (hm : (a, b) ∈ rs) : rename rs a = b := by
  simp [rename, lookup_of_mem rs h a b hm]

/-! ## Only methods that are called directly are visible to other instances -/

theorem toLoop_sub (k : Nat) (i : Inst) (n : Conn) (es : List End) (seen : List String) (o : Opt)
    (h : o ∈ (toLoop k i n es seen).1) :
    ∃ e ∈ es, e.inst = k ∧ o ∈ toOpts n e ∧ ∀ o' ∈ toOpts n e, o' ∈ (toLoop k i n es seen).1 := by
  induction es generalizing seen with
  | nil => simp [toLoop] at h
  | cons e es ih =>
    rw [toLoop] at h ⊢
    split at h
    · rename_i hk
      split at h
      · rename_i hs
        obtain ⟨e', h1, h2, h3, h4⟩ := ih seen h
        exact ⟨e', List.mem_cons_of_mem _ h1, h2, h3, by simpa only [hk, hs, ↓reduceIte] using h4⟩
      · rename_i hs
        simp only at h
        simp only [hk, ↓reduceIte, hs]
        rcases List.mem_append.1 h with h | h
        · exact ⟨e, List.mem_cons_self, by simpa using hk, h, fun o' ho' => List.mem_append_left _ ho'⟩
        · obtain ⟨e', h1, h2, h3, h4⟩ := ih _ h
          exact ⟨e', List.mem_cons_of_mem _ h1, h2, h3, fun o' ho' => List.mem_append_right _ (h4 o' ho')⟩
    · rename_i hk
      obtain ⟨e', h1, h2, h3, h4⟩ := ih seen h
      exact ⟨e', List.mem_cons_of_mem _ h1, h2, h3, by simpa only [hk, Bool.false_eq_true, ↓reduceIte] using h4⟩

theorem connLoop_sub (k : Nat) (i : Inst) (cs : List Conn) (seen : List String) (o : Opt)
    (h : o ∈ (connLoop k i cs seen).1) :
    ∃ n ∈ cs, n.type = "seL4DirectCall" ∧ ((∃ e ∈ n.fromEnds, e.inst = k ∧ o ∈ fromOpts n e) ∨
      ∃ e ∈ n.toEnds, e.inst = k ∧ o ∈ toOpts n e ∧ ∀ o' ∈ toOpts n e, o' ∈ (connLoop k i cs seen).1) := by
  induction cs generalizing seen with
  | nil => simp [connLoop] at h
  | cons n cs ih =>
    rw [connLoop] at h ⊢
    split at h
    · rename_i hd
      simp only [hd, ↓reduceIte]
      simp only at h
      rcases List.mem_append.1 h with h | h
      · rcases List.mem_append.1 h with h | h
        · obtain ⟨e, he, ho⟩ := List.mem_flatMap.1 h
          simp only [List.mem_filter, beq_iff_eq] at he
          exact ⟨n, List.mem_cons_self, (direct_iff n).1 hd, .inl ⟨e, he.1, he.2, ho⟩⟩
        · obtain ⟨e, h1, h2, h3, h4⟩ := toLoop_sub _ _ _ _ _ _ h
          exact ⟨n, List.mem_cons_self, (direct_iff n).1 hd, .inr ⟨e, h1, h2, h3, fun o' ho' =>
            List.mem_append_left _ (List.mem_append_right _ (h4 o' ho'))⟩⟩
      · obtain ⟨n', h1, h2, h3⟩ := ih _ h
        refine ⟨n', List.mem_cons_of_mem _ h1, h2, h3.imp_right ?_⟩
        rintro ⟨e, h4, h5, h6, h7⟩
        exact ⟨e, h4, h5, h6, fun o' ho' => List.mem_append_right _ (h7 o' ho')⟩
    · rename_i hd
      simp only [hd]
      obtain ⟨n', h1, h2, h3⟩ := ih _ h
      exact ⟨n', List.mem_cons_of_mem _ h1, h2, h3⟩

theorem optLoop_lookup (c : Comp) (xs : List Numbered) (seen : List String)
    (h : (xs.map Prod.fst).Nodup) (k : Nat) (i : Inst) (hx : (k, i) ∈ xs) :
    ∃ seen', (optLoop c xs seen).lookup k = some (instOpts c k i seen').1 := by
  induction xs generalizing seen with
  | nil => simp at hx
  | cons y ys ih =>
    simp only [List.map_cons, List.nodup_cons] at h
    rw [optLoop]
    rcases List.mem_cons.1 hx with rfl | hx
    · exact ⟨seen, by simp⟩
    · have hne : k ≠ y.1 := fun e => h.1 (e ▸ List.mem_map.2 ⟨(k, i), hx, rfl⟩)
      have : (k == y.1) = false := by simpa using hne
      simp only [List.lookup_cons, this]
      exact ih _ h.2 hx

/-- **C111 (symbols).** Of the symbols that an instance defines, the only ones that other instances of
the image can see are methods of interfaces that the instance provides over direct connections. All
others are local to the instance, and none is lost. This holds for every assembly, if `objcopy`
accepts its options at all. -/
theorem isolated (c : Comp) (k : Nat) (i : Inst) (o : Obj) (cp : Copy) (hi : At c k i)
    (hs : i.hardware = false) (ho : ∀ s ∈ o.defs, ' ' ∉ s.toList ∧ s ≠ "")
    (h : objcopy (opts c k) o = .ok cp) :
    (∀ new old, (new, old) ∈ cp.globals → ∃ n ∈ c.conns, n.type = "seL4DirectCall" ∧
      ∃ e ∈ n.toEnds, e.inst = k ∧ ∃ m ∈ e.methods, CName e m old) ∧
    ((cp.globals ++ cp.locals).map Prod.snd).Perm o.defs ∧ cp.refs.map Prod.snd = o.refs := by
  obtain ⟨seen, hl⟩ := optLoop_lookup c (software c) [] (software_nodup c) k i ((mem_software ..).2 ⟨hi, hs⟩)
  have hopts : opts c k = (instOpts c k i seen).1 := by simp [opts, hl]
  rw [hopts] at h
  unfold objcopy at h
  simp only at h
  split at h
  · rename_i hnd
    simp only [Except.ok.injEq] at h
    subst h
    refine ⟨?_, ?_, ?_⟩
    · intro new old hg
      simp only [List.mem_filter, List.mem_map, Prod.mk.injEq, Bool.or_eq_true, List.isEmpty_iff] at hg
      obtain ⟨⟨s, hsd, h1, rfl⟩, hkeep⟩ := hg
      obtain ⟨hb, hne⟩ := ho s hsd
      have hkm : new ∈ keeps (instOpts c k i seen).1 := by
        rcases hkeep with hk | hk
        · simp [instOpts, keeps] at hk
        · simpa using hk
      rw [mem_keeps] at hkm
      simp only [instOpts, List.mem_cons, Opt.keep.injEq, reduceCtorEq, false_or] at hkm
      rcases rename_cases (redefs (instOpts c k i seen).1) s with hr | ⟨hr, _⟩
      · rw [h1] at hr
        rcases hkm with rfl | hkm
        · rw [mem_redefs] at hr
          simp only [instOpts, List.mem_cons, reduceCtorEq, false_or, Opt.redefine.injEq] at hr
          rcases hr with ⟨_, hr⟩ | hr
          · have := congrArg String.toList hr
            rw [start_list] at this
            simp at this
          · obtain ⟨n, _, _, ⟨e, _, _, hr⟩ | ⟨e, _, _, hr, _⟩⟩ := connLoop_sub _ _ _ _ _ hr
            · rw [← mem_redefs, redefs_from] at hr
              obtain ⟨m, _, he⟩ := List.mem_map.1 hr
              simp only [Prod.mk.injEq] at he
              have := blank_shared n m
              rw [he.2] at this
              simp at this
            · rw [← mem_redefs, redefs_to] at hr
              obtain ⟨m, _, he⟩ := List.mem_map.1 hr
              simp only [Prod.mk.injEq] at he
              have := blank_shared n m
              rw [he.2] at this
              simp at this
        · obtain ⟨n, hn, hd, ⟨e, _, _, hk⟩ | ⟨e, he, hek, hk, hall⟩⟩ := connLoop_sub _ _ _ _ _ hkm
          · simp [fromOpts] at hk
          · simp only [toOpts, List.mem_flatMap, List.mem_cons, reduceCtorEq, false_or, Opt.keep.injEq,
              List.not_mem_nil, or_false] at hk
            obtain ⟨m, hm, rfl⟩ := hk
            have hr' : (local_ e m, shared n m) ∈ redefs (instOpts c k i seen).1 := by
              rw [mem_redefs]
              refine List.mem_cons_of_mem _ (List.mem_cons_of_mem _ (hall _ ?_))
              simp only [toOpts, List.mem_flatMap, List.mem_cons]
              exact ⟨m, hm, .inl rfl⟩
            have : s = local_ e m := by
              have := List.inj_on_of_nodup_map hnd.2 hr hr' rfl
              simp only [Prod.mk.injEq, and_true] at this
              exact this
            exact ⟨n, hn, hd, e, he, hek, m, hm, (cname_iff ..).2 this⟩
      · rw [hr] at h1
        subst h1
        rcases hkm with rfl | hkm
        · exact absurd rfl hne
        · obtain ⟨n, hn, hd, ⟨e, _, _, hk⟩ | ⟨e, he, hek, hk, hall⟩⟩ := connLoop_sub _ _ _ _ _ hkm
          · simp [fromOpts] at hk
          · simp only [toOpts, List.mem_flatMap, List.mem_cons, reduceCtorEq, false_or, Opt.keep.injEq,
              List.not_mem_nil, or_false] at hk
            obtain ⟨m, hm, rfl⟩ := hk
            exact absurd (blank_shared n m) hb
    · simp only
      refine (List.Perm.map _ (List.filter_append_perm _ _)).trans ?_
      simp [List.map_map, Function.comp_def]
    · simp [List.map_map, Function.comp_def]
  · simp at h

/-! ## Direct calls -/

theorem objcopy_direct (c : Comp) (objs : Nat → Obj) (hc : Checked c) (hu : Unambiguous c)
    (ho : Objects c objs) (k : Nat) (i : Inst) (hi : At c k i) (hs : i.hardware = false) :
    ∃ cp, objcopy (opts c k) (objs k) = .ok cp ∧
      (∀ a b, (a, b) ∈ cp.globals ↔ ∃ n f t m, Direct c n f t ∧ t.inst = k ∧ m ∈ t.methods ∧
        a = shared n m ∧ b = local_ t m) ∧
      (cp.globals.map Prod.fst).Nodup ∧
      (∀ a b, (a, b) ∈ cp.refs ↔ b ∈ (objs k).refs ∧ ∃ n f t m, Direct c n f t ∧ f.inst = k ∧
        m ∈ f.methods ∧ a = shared n m ∧ b = local_ f m) ∧
      (∀ a b, (a, b) ∈ cp.globals ++ cp.locals → a = "_camkes_start" ∨ (∃ i', ' ' ∉ i'.name.toList ∧
        i'.name ≠ "connection" ∧ a = start i') →
        a = start i ∧ b = "_camkes_start") ∧
      ("_camkes_start" ∈ (objs k).defs → (start i, "_camkes_start") ∈ cp.locals) := by
  have hp := opts_pure c hc hu k i hi hs
  have hnd := redefs_nodup c hc hu k i hi
  have hmr := mem_pure_redefs c hc k i
  have hmk := mem_pure_keeps c hc k i
  have hkne : (keeps (pureOpts c k i)).isEmpty = false := by simp [pureOpts, keeps]
  have hrel : ∀ n f t m, Direct c n f t → m ∈ t.methods → m ∈ f.methods := by
    intro n f t m hD hm; rw [(hc.methods n f t hD).1]; exact hm
  have hglob : ∀ old, old ∈ (objs k).defs → ∀ n f t m, Direct c n f t → t.inst = k → m ∈ t.methods →
      rename (redefs (pureOpts c k i)) old = shared n m → old = local_ t m := by
    intro old hold n f t m hD ht hm hr
    rcases rename_cases (redefs (pureOpts c k i)) old with h | ⟨h, _⟩
    · rw [hr, hmr] at h
      rcases h with ⟨_, h⟩ | ⟨n', f', t', e, m', hD', he, hk, hm', h1, h2⟩
      · exact absurd h.symm (start_ne_shared (hc.words k i hi) n m)
      · have hm'f : m' ∈ f'.methods := by
          rcases he with rfl | rfl
          · exact hm'
          · exact hrel _ _ _ _ hD' hm'
        obtain ⟨rfl, rfl⟩ := hu.shared n f t n' f' t' m m' hD hD' (hrel _ _ _ _ hD hm) hm'f (shared_inj h2)
        have hff : f = f' := by simpa using hD.2.2.1.symm.trans hD'.2.2.1
        have htt : t = t' := by simpa using hD.2.2.2.symm.trans hD'.2.2.2
        subst hff; subst htt
        rcases he with rfl | rfl
        · exact absurd (hk.trans ht.symm) (hc.apart _ _ _ hD)
        · exact h1
    · rw [h] at hr
      have := blank_shared n m
      rw [← hr] at this
      exact absurd this (ho.ids k old hold).1
  have hempty : ∀ old, old ∈ (objs k).defs → rename (redefs (pureOpts c k i)) old ≠ "" := by
    intro old hold hr
    rcases rename_cases (redefs (pureOpts c k i)) old with h | ⟨h, _⟩
    · rw [hr, hmr] at h
      rcases h with ⟨_, h⟩ | ⟨n', f', t', e, m', hD', he, hk, hm', h1, h2⟩
      · have := congrArg String.toList h
        rw [start_list] at this
        simp at this
      · have := blank_shared n' m'
        rw [← h2] at this
        simp at this
    · rw [h] at hr
      exact (ho.ids k old hold).2 hr
  have hto : ∀ n f t m, Direct c n f t → t.inst = k → m ∈ t.methods →
      rename (redefs (pureOpts c k i)) (local_ t m) = shared n m := by
    intro n f t m hD ht hm
    exact rename_mem _ hnd.1 _ _ ((hmr _ _).2 (.inr ⟨n, f, t, t, m, hD, .inr rfl, ht, hm, rfl, rfl⟩))
  have hfrom : ∀ n f t m, Direct c n f t → f.inst = k → m ∈ f.methods →
      rename (redefs (pureOpts c k i)) (local_ f m) = shared n m := by
    intro n f t m hD ht hm
    exact rename_mem _ hnd.1 _ _ ((hmr _ _).2 (.inr ⟨n, f, t, f, m, hD, .inl rfl, ht, hm, rfl, rfl⟩))
  have hstart : rename (redefs (pureOpts c k i)) "_camkes_start" = start i :=
    rename_mem _ hnd.1 _ _ ((hmr _ _).2 (.inl ⟨rfl, rfl⟩))
  have hshared_blank : ∀ old, old ∈ (objs k).defs → ∀ i', rename (redefs (pureOpts c k i)) old = start i' →
      ' ' ∉ i'.name.toList → i'.name ≠ "connection" → start i' = start i ∧ old = "_camkes_start" := by
    intro old hold i' hr hw hw'
    rcases rename_cases (redefs (pureOpts c k i)) old with h | ⟨h, _⟩
    · rw [hr, hmr] at h
      rcases h with ⟨h0, h⟩ | ⟨n', f', t', e, m', hD', he, hk, hm', h1, h2⟩
      · exact ⟨h, h0⟩
      · exact absurd h2 (start_ne_shared ⟨hw, hw'⟩ n' m')
    · rw [h] at hr
      have : ' ' ∈ (start i').toList := by rw [start_list]; simp
      rw [← hr] at this
      exact absurd this (ho.ids k old hold).1
  have hnotstart : ∀ old, old ∈ (objs k).defs → rename (redefs (pureOpts c k i)) old ≠ "_camkes_start" := by
    intro old hold hr
    have hb : ' ' ∉ "_camkes_start".toList := by decide +kernel
    rcases rename_cases (redefs (pureOpts c k i)) old with h | ⟨h, h'⟩
    · rw [hr, hmr] at h
      rcases h with ⟨_, h⟩ | ⟨n', f', t', e, m', hD', he, hk, hm', h1, h2⟩
      · rw [h, start_list] at hb
        simp at hb
      · rw [h2] at hb
        exact hb (blank_shared n' m')
    · rw [h] at hr
      rw [hr] at h'
      apply h'
      simp [pureOpts, redefs]
  unfold objcopy
  simp only [hp, hnd, and_self, ↓reduceIte, hkne, Bool.false_or]
  refine ⟨_, rfl, ?_, ?_, ?_, ?_, ?_⟩
  · intro a b
    simp only [List.mem_filter, List.mem_map, Prod.mk.injEq, List.contains_eq_mem, decide_eq_true_eq, hmk]
    constructor
    · rintro ⟨⟨s, hsd, rfl, rfl⟩, hk | ⟨n, f, t, m, hD, ht, hm, hk⟩⟩
      · exact absurd hk (hempty s hsd)
      · exact ⟨n, f, t, m, hD, ht, hm, hk, hglob s hsd n f t m hD ht hm hk⟩
    · rintro ⟨n, f, t, m, hD, ht, hm, rfl, rfl⟩
      refine ⟨⟨local_ t m, ?_, hto n f t m hD ht hm, rfl⟩, .inr ⟨n, f, t, m, hD, ht, hm, rfl⟩⟩
      exact ht ▸ ho.provided n f t m _ hD hm ((cname_iff ..).2 rfl)
  · refine List.Nodup.map_on ?_ ?_
    · rintro ⟨a, b⟩ hx ⟨a', b'⟩ hy he
      simp only at he
      subst he
      simp only [List.mem_filter, List.mem_map, Prod.mk.injEq, List.contains_eq_mem, decide_eq_true_eq, hmk] at hx hy
      obtain ⟨⟨s, hsd, hr, rfl⟩, hk⟩ := hx
      obtain ⟨⟨s', hsd', hr', rfl⟩, hk'⟩ := hy
      rcases hk with hk | ⟨n, f, t, m, hD, ht, hm, hk⟩
      · exact absurd (hr.trans hk) (hempty s hsd)
      · rw [hglob s hsd n f t m hD ht hm (hr.trans hk), hglob s' hsd' n f t m hD ht hm (hr'.trans hk)]
    · refine List.Nodup.filter _ ((ho.defs k).map_on ?_)
      intro a _ b _ h
      simp only [Prod.mk.injEq] at h
      exact h.2
  · intro a b
    simp only [List.mem_map, Prod.mk.injEq]
    constructor
    · rintro ⟨s, hsr, rfl, rfl⟩
      obtain ⟨n, f, t, m, hD, hf, hm, hcn⟩ := ho.used k s hsr
      rw [cname_iff] at hcn
      subst hcn
      exact ⟨hsr, n, f, t, m, hD, hf, hm, hfrom n f t m hD hf hm, rfl⟩
    · rintro ⟨hsr, n, f, t, m, hD, hf, hm, rfl, rfl⟩
      exact ⟨local_ f m, hsr, hfrom n f t m hD hf hm, rfl⟩
  · intro a b hab ha
    have : b ∈ (objs k).defs ∧ rename (redefs (pureOpts c k i)) b = a := by
      simp only [List.mem_append, List.mem_filter, List.mem_map, Prod.mk.injEq] at hab
      rcases hab with ⟨⟨s, h1, h2, rfl⟩, _⟩ | ⟨⟨s, h1, h2, rfl⟩, _⟩
      · exact ⟨h1, h2⟩
      · exact ⟨h1, h2⟩
    rcases ha with rfl | ⟨i', hw, hw', rfl⟩
    · exact absurd this.2 (hnotstart b this.1)
    · exact hshared_blank b this.1 i' this.2 hw hw'
  · intro hd
    simp only [List.mem_filter, List.mem_map, Prod.mk.injEq, Bool.not_eq_true', List.contains_eq_mem,
      decide_eq_false_iff_not, hmk]
    refine ⟨⟨_, hd, hstart, rfl⟩, ?_⟩
    rintro (h | ⟨n, f, t, m, _, _, _, h⟩)
    · have := congrArg String.toList h
      rw [start_list] at this
      simp at this
    · exact start_ne_shared (hc.words k i hi) n m h

theorem copies_ok (c : Comp) (objs : Nat → Obj) (xs : List Numbered)
    (h : ∀ k i, (k, i) ∈ xs → ∃ cp, objcopy (opts c k) (objs k) = .ok cp) :
    ∃ os, copies c objs xs = .ok os ∧ os.map Prod.fst = xs.map Prod.fst ∧
      ∀ k cp, (k, cp) ∈ os → objcopy (opts c k) (objs k) = .ok cp := by
  induction xs with
  | nil => exact ⟨[], rfl, rfl, by simp⟩
  | cons x xs ih =>
    obtain ⟨cp, hcp⟩ := h x.1 x.2 List.mem_cons_self
    obtain ⟨os, h1, h2, h3⟩ := ih (fun k i hk => h k i (List.mem_cons_of_mem _ hk))
    refine ⟨(x.1, cp) :: os, by simp [copies, hcp, h1], by simp [h2], ?_⟩
    intro k cp' hm
    rcases List.mem_cons.1 hm with he | hm
    · simp only [Prod.mk.injEq] at he
      obtain ⟨rfl, rfl⟩ := he
      exact hcp
    · exact h3 k cp' hm

theorem bind_ok (ds rs : List (String × Own)) (h : ∀ r ∈ rs, ∃ d, ds.lookup r.1 = some d) :
    ∃ b, bind ds rs = .ok b ∧ b.map Prod.fst = rs.map Prod.snd ∧
      ∀ x, x ∈ b ↔ ∃ r ∈ rs, r.2 = x.1 ∧ ds.lookup r.1 = some x.2 := by
  induction rs with
  | nil => exact ⟨[], rfl, rfl, by simp⟩
  | cons r rs ih =>
    obtain ⟨d, hd⟩ := h r List.mem_cons_self
    obtain ⟨b, h1, h2, h3⟩ := ih (fun r' hr' => h r' (List.mem_cons_of_mem _ hr'))
    refine ⟨(r.2, d) :: b, by simp [bind, hd, h1], by simp [h2], ?_⟩
    intro x
    simp only [List.mem_cons, h3, exists_eq_or_imp, hd, Option.some.injEq]
    refine or_congr ⟨?_, ?_⟩ Iff.rfl
    · rintro rfl; exact ⟨rfl, rfl⟩
    · rintro ⟨h1, h2⟩; exact Prod.ext h1.symm h2.symm

/-- **C111 (direct calls, part).** In the image of several instances, every reference to a method that
an instance uses over a direct connection is bound to the procedure of that method in the instance
at the other end of the connection, and no other reference is bound between instances. Missing:
the hypothesis that names put together with underscores do not coincide, see
`same_name_twice` and `interface_left_out`. -/
theorem direct_calls_partial (c : Comp) (objs : Nat → Obj) (g : String) (hc : Checked c) (hu : Unambiguous c)
    (ht : Together c) (ho : Objects c objs) (hlen : (members c g).length > 1) :
    ∃ b, image c objs g = .ok (.linked b) ∧
      ∀ k r k' d, ((k, r), (k', d)) ∈ b ↔ In c g k ∧ r ∈ (objs k).refs ∧ Call c k r k' d := by
  have hobj := objcopy_direct c objs hc hu ho
  obtain ⟨os, h1, h2, h3⟩ := copies_ok c objs (members c g) (fun k i hk => by
    obtain ⟨a1, a2, _⟩ := (mem_members ..).1 hk
    obtain ⟨cp, hcp, _⟩ := hobj k i a1 a2
    exact ⟨cp, hcp⟩)
  have hin : ∀ k, (∃ cp, (k, cp) ∈ os) ↔ In c g k := by
    intro k
    have : (∃ cp, (k, cp) ∈ os) ↔ k ∈ os.map Prod.fst := by simp
    rw [this, h2]
    simp only [List.mem_map, Prod.exists, exists_and_right, exists_eq_right, mem_members]
    exact Iff.rfl
  have hG : ∀ a k' d, (a, (k', d)) ∈ globals os ↔ In c g k' ∧ ∃ n f t m, Direct c n f t ∧ t.inst = k' ∧
      m ∈ t.methods ∧ a = shared n m ∧ d = local_ t m := by
    intro a k' d
    simp only [globals, List.mem_flatMap, List.mem_map, Prod.mk.injEq, Prod.exists]
    constructor
    · rintro ⟨k, cp, hm, s, s', hs, rfl, rfl, rfl⟩
      have hI := (hin k).1 ⟨cp, hm⟩
      refine ⟨hI, ?_⟩
      obtain ⟨i, a1, a2, _⟩ := hI
      obtain ⟨cp', e1, e2, _⟩ := hobj k i a1 a2
      have : cp' = cp := by have := (h3 k cp hm).symm.trans e1; simpa using this.symm
      subst this
      exact (e2 s s').1 hs
    · rintro ⟨hI, hx⟩
      obtain ⟨cp, hm⟩ := (hin k').2 hI
      obtain ⟨i, a1, a2, _⟩ := hI
      obtain ⟨cp', e1, e2, _⟩ := hobj k' i a1 a2
      have : cp' = cp := by have := (h3 k' cp hm).symm.trans e1; simpa using this.symm
      subst this
      exact ⟨k', cp', hm, a, d, (e2 a d).2 hx, rfl, rfl, rfl⟩
  have hR : ∀ a k r, (a, (k, r)) ∈ references os ↔ In c g k ∧ r ∈ (objs k).refs ∧ ∃ n f t m, Direct c n f t ∧
      f.inst = k ∧ m ∈ f.methods ∧ a = shared n m ∧ r = local_ f m := by
    intro a k' d
    simp only [references, List.mem_flatMap, List.mem_map, Prod.mk.injEq, Prod.exists]
    constructor
    · rintro ⟨k, cp, hm, s, s', hs, rfl, rfl, rfl⟩
      have hI := (hin k).1 ⟨cp, hm⟩
      refine ⟨hI, ?_⟩
      obtain ⟨i, a1, a2, _⟩ := hI
      obtain ⟨cp', e1, _, _, e2, _⟩ := hobj k i a1 a2
      have : cp' = cp := by have := (h3 k cp hm).symm.trans e1; simpa using this.symm
      subst this
      exact (e2 s s').1 hs
    · rintro ⟨hI, hx⟩
      obtain ⟨cp, hm⟩ := (hin k').2 hI
      obtain ⟨i, a1, a2, _⟩ := hI
      obtain ⟨cp', e1, _, _, e2, _⟩ := hobj k' i a1 a2
      have : cp' = cp := by have := (h3 k' cp hm).symm.trans e1; simpa using this.symm
      subst this
      exact ⟨k', cp', hm, a, d, (e2 a d).2 hx, rfl, rfl, rfl⟩
  have hsame : ∀ n f t m n' f' t' m', Direct c n f t → Direct c n' f' t' → m ∈ f.methods → m' ∈ f'.methods →
      shared n m = shared n' m' → n = n' ∧ f = f' ∧ t = t' ∧ m = m' := by
    intro n f t m n' f' t' m' hD hD' hm hm' he
    obtain ⟨rfl, rfl⟩ := hu.shared n f t n' f' t' m m' hD hD' hm hm' (shared_inj he)
    exact ⟨rfl, by simpa using hD.2.2.1.symm.trans hD'.2.2.1, by simpa using hD.2.2.2.symm.trans hD'.2.2.2, rfl⟩
  have hmf : ∀ n f t m, Direct c n f t → m ∈ t.methods → m ∈ f.methods := by
    intro n f t m hD hm; rw [(hc.methods n f t hD).1]; exact hm
  have hnd : ((globals os).map Prod.fst).Nodup := by
    unfold globals
    rw [List.map_flatMap, List.nodup_flatMap]
    constructor
    · rintro ⟨k, cp⟩ hm
      obtain ⟨i, a1, a2, _⟩ := (hin k).1 ⟨cp, hm⟩
      obtain ⟨cp', e1, _, e2, _⟩ := hobj k i a1 a2
      have : cp' = cp := by have := (h3 k cp hm).symm.trans e1; simpa using this.symm
      subst this
      simpa [List.map_map, Function.comp_def] using e2
    · have hos : os.Nodup := List.Nodup.of_map _ (h2 ▸ members_nodup c g)
      refine List.Pairwise.imp_of_mem ?_ hos
      rintro ⟨k, cp⟩ ⟨k', cp'⟩ hm hm' hne s hs hs'
      apply hne
      have get : ∀ k cp, (k, cp) ∈ os → s ∈ ((cp.globals.map fun s => (s.1, (k, s.2))).map Prod.fst) →
          ∃ n f t m, Direct c n f t ∧ t.inst = k ∧ m ∈ t.methods ∧ s = shared n m := by
        intro k cp hm hs
        obtain ⟨⟨a, k1, d⟩, hx, rfl⟩ := List.mem_map.1 hs
        have : (a, (k1, d)) ∈ globals os := List.mem_flatMap.2 ⟨(k, cp), hm, hx⟩
        obtain ⟨_, n, f, t, m, hD, h4, h5, h6, _⟩ := (hG ..).1 this
        obtain ⟨⟨_, _⟩, _, he⟩ := List.mem_map.1 hx
        simp only [Prod.mk.injEq] at he
        exact ⟨n, f, t, m, hD, h4.trans he.2.1.symm, h5, h6⟩
      obtain ⟨n, f, t, m, hD, hk, hmm, hse⟩ := get k cp hm hs
      obtain ⟨n', f', t', m', hD', hk', hmm', hse'⟩ := get k' cp' hm' hs'
      obtain ⟨_, _, rfl, _⟩ := hsame n f t m n' f' t' m' hD hD' (hmf _ _ _ _ hD hmm) (hmf _ _ _ _ hD' hmm')
        (hse.symm.trans hse')
      have hkk : k = k' := hk.symm.trans hk'
      subst hkk
      have := (h3 k cp hm).symm.trans (h3 k cp' hm')
      simp only [Except.ok.injEq] at this
      rw [this]
  have hres : ∀ n f t m, Direct c n f t → m ∈ f.methods → In c g f.inst →
      (globals os).lookup (shared n m) = some (t.inst, local_ t m) := by
    intro n f t m hD hm hI
    apply lookup_of_mem _ hnd
    rw [hG]
    have hmt : m ∈ t.methods := (hc.methods n f t hD).1 ▸ hm
    refine ⟨?_, n, f, t, m, hD, rfl, hmt, rfl, rfl⟩
    obtain ⟨g', ⟨i, b1, b2, b3⟩, hI'⟩ := ht n f t hD
    obtain ⟨i', d1, d2, d3⟩ := hI
    have : i = i' := by have := b1.symm.trans d1; simpa using this
    subst this
    have hgg : g' = g := b3.symm.trans d3
    exact hgg ▸ hI'
  obtain ⟨b, e1, _, e3⟩ := bind_ok (globals os) (references os) (by
    rintro ⟨a, k, r⟩ hr
    obtain ⟨hI, _, n, f, t, m, hD, hf, hm, rfl, _⟩ := (hR ..).1 hr
    exact ⟨_, hres n f t m hD hm (hf ▸ hI)⟩)
  refine ⟨b, ?_, ?_⟩
  · simp [image, h1, hlen, link, hnd, e1]
  · intro k r k' d
    rw [e3]
    simp only [Prod.exists, Prod.mk.injEq]
    constructor
    · rintro ⟨a, k1, r1, hr, ⟨rfl, rfl⟩, hl⟩
      obtain ⟨hI, hrf, n, f, t, m, hD, hf, hm, rfl, rfl⟩ := (hR ..).1 hr
      rw [hres n f t m hD hm (hf ▸ hI)] at hl
      simp only [Option.some.injEq, Prod.mk.injEq] at hl
      exact ⟨hI, hrf, n, f, t, m, hD, hm, hf, hl.1, (cname_iff ..).2 rfl, (cname_iff ..).2 hl.2.symm⟩
    · rintro ⟨hI, hrf, n, f, t, m, hD, hm, hf, hk', hr, hd⟩
      rw [cname_iff] at hr hd
      refine ⟨shared n m, k, r, (hR ..).2 ⟨hI, hrf, n, f, t, m, hD, hf, hm, rfl, hr⟩, ⟨rfl, rfl⟩, ?_⟩
      rw [hres n f t m hD hm (hf ▸ hI), hk', hd]

/-- **C111 (entry points, part).** In the image of an address space the symbol at which the control
thread of an instance starts is the entry point of that instance, and no other symbol has this
name. -/
theorem entry_point_partial (c : Comp) (objs : Nat → Obj) (hc : Checked c) (hu : Unambiguous c)
    (ho : Objects c objs) (k : Nat) (i : Inst) (hi : At c k i) (hs : i.hardware = false)
    (hd : ∀ k', "_camkes_start" ∈ (objs k').defs) :
    ∃ os, copies c objs (members c i.space) = .ok os ∧
      ∀ k' old, (∃ cp, (k', cp) ∈ os ∧ (entrySymbol i, old) ∈ cp.globals ++ cp.locals) ↔
        k' = k ∧ old = "_camkes_start" := by
  have hobj := objcopy_direct c objs hc hu ho
  obtain ⟨os, h1, h2, h3⟩ := copies_ok c objs (members c i.space) (fun k i hk => by
    obtain ⟨a1, a2, _⟩ := (mem_members ..).1 hk
    obtain ⟨cp, hcp, _⟩ := hobj k i a1 a2
    exact ⟨cp, hcp⟩)
  refine ⟨os, h1, ?_⟩
  intro k' old
  constructor
  · rintro ⟨cp, hm, hx⟩
    have hk' : k' ∈ (members c i.space).map Prod.fst := h2 ▸ List.mem_map.2 ⟨_, hm, rfl⟩
    obtain ⟨⟨k1, i'⟩, hmem, rfl⟩ := List.mem_map.1 hk'
    obtain ⟨a1, a2, _⟩ := (mem_members ..).1 hmem
    obtain ⟨cp', e1, _, _, _, e2, _⟩ := hobj k1 i' a1 a2
    have : cp' = cp := by have := (h3 k1 cp hm).symm.trans e1; simpa using this.symm
    subst this
    obtain ⟨b1, b2⟩ := e2 _ _ hx (.inr ⟨i, (hc.words k i hi).1, (hc.words k i hi).2, rfl⟩)
    exact ⟨hc.insts k1 k i' i a1 hi (start_inj b1).symm, b2⟩
  · rintro ⟨rfl, rfl⟩
    have hk' : k' ∈ os.map Prod.fst :=
      h2 ▸ List.mem_map.2 ⟨(k', i), (mem_members ..).2 ⟨hi, hs, rfl⟩, rfl⟩
    obtain ⟨⟨k1, cp⟩, hm, rfl⟩ := List.mem_map.1 hk'
    obtain ⟨cp', e1, _, _, _, _, e2⟩ := hobj k1 i hi hs
    have : cp' = cp := by have := (h3 k1 cp hm).symm.trans e1; simpa using this.symm
    subst this
    exact ⟨cp', hm, List.mem_append_right _ (e2 (hd k1))⟩

/-! ## Examples and disagreements -/

/-- The direct connections of an assembly, with their ends. -/
def directs (c : Comp) : List (Conn × End × End) :=
  c.conns.filterMap fun n =>
    match n.fromEnds, n.toEnds with
    | [f], [t] => if n.type = "seL4DirectCall" then some (n, f, t) else none
    | _, _ => none

theorem mem_directs (c : Comp) (n : Conn) (f t : End) : Direct c n f t ↔ (n, f, t) ∈ directs c := by
  simp only [directs, List.mem_filterMap, Direct]
  constructor
  · rintro ⟨h1, h2, h3, h4⟩
    exact ⟨n, h1, by simp [h2, h3, h4]⟩
  · rintro ⟨n', h1, h2⟩
    split at h2
    · rename_i f' t' e1 e2
      split at h2
      · simp only [Option.some.injEq, Prod.mk.injEq] at h2
        obtain ⟨rfl, rfl, rfl⟩ := h2
        exact ⟨h1, by assumption, e1, e2⟩
      · simp at h2
    · simp at h2

/-- A test for `Checked`. -/
theorem checked_of (c : Comp)
    (h1 : ∀ n ∈ c.conns, n.type = "seL4DirectCall" → n.fromEnds.length = 1 ∧ n.toEnds.length = 1)
    (h2 : (c.conns.map Conn.name).Nodup)
    (h3 : ∀ x ∈ directs c, x.2.1.methods = x.2.2.methods ∧ x.2.1.methods.Nodup ∧ x.2.1.inst ≠ x.2.2.inst)
    (h4 : ∀ x ∈ numbered c, ∀ y ∈ numbered c, x.2.name = y.2.name → x.1 = y.1)
    (h5 : ∀ x ∈ numbered c, ' ' ∉ x.2.name.toList ∧ x.2.name ≠ "connection") : Checked c := by
  refine ⟨?_, ?_, ?_, ?_, ?_, ?_⟩
  · intro n hn ht
    obtain ⟨a, b⟩ := h1 n hn ht
    obtain ⟨f, hf⟩ := List.length_eq_one_iff.1 a
    obtain ⟨t, ht⟩ := List.length_eq_one_iff.1 b
    exact ⟨f, t, hf, ht⟩
  · rw [List.Nodup, List.pairwise_map] at h2; exact h2
  · intro n f t hD
    have := h3 _ ((mem_directs ..).1 hD)
    exact ⟨this.1, this.2.1⟩
  · intro n f t hD; exact (h3 _ ((mem_directs ..).1 hD)).2.2
  · intro k k' i i' hi hi' he
    exact h4 (k, i) ((mem_numbered ..).2 hi) (k', i') ((mem_numbered ..).2 hi') he
  · intro k i hi; exact h5 (k, i) ((mem_numbered ..).2 hi)

/-- A test for `Together`. -/
theorem together_of (c : Comp) (h : ∀ x ∈ directs c, ∃ a ∈ numbered c, ∃ b ∈ numbered c,
    a.1 = x.2.1.inst ∧ b.1 = x.2.2.inst ∧ a.2.space = b.2.space ∧ a.2.hardware = false ∧ b.2.hardware = false) :
    Together c := by
  intro n f t hD
  obtain ⟨⟨ka, a⟩, ha, ⟨kb, b⟩, hb, e1, e2, e3, e4, e5⟩ := h _ ((mem_directs ..).1 hD)
  simp only at e1 e2 e3 e4 e5
  refine ⟨a.space, ⟨a, e1 ▸ (mem_numbered ..).1 ha, e4, rfl⟩, ⟨b, e2 ▸ (mem_numbered ..).1 hb, e5, e3.symm⟩⟩

/-- A test for `Objects`. -/
theorem objects_of (c : Comp) (l : List Obj) (h1 : ∀ o ∈ l, o.defs.Nodup ∧ ∀ s ∈ o.defs, ' ' ∉ s.toList ∧ s ≠ "")
    (h2 : ∀ x ∈ directs c, ∀ m ∈ x.2.2.methods, local_ x.2.2 m ∈ (l.getD x.2.2.inst ⟨[], []⟩).defs)
    (h3 : ∀ k, k < l.length → ∀ r ∈ (l.getD k ⟨[], []⟩).refs, ∃ x ∈ directs c, x.2.1.inst = k ∧
      ∃ m ∈ x.2.1.methods, r = local_ x.2.1 m) : Objects c (fun k => l.getD k ⟨[], []⟩) := by
  have hcase : ∀ k, (k < l.length ∧ l.getD k ⟨[], []⟩ ∈ l) ∨ l.getD k ⟨[], []⟩ = ⟨[], []⟩ := by
    intro k
    by_cases h : k < l.length
    · refine .inl ⟨h, ?_⟩
      rw [List.getD_eq_getElem?_getD, List.getElem?_eq_getElem h]; exact List.getElem_mem _
    · exact .inr (by rw [List.getD_eq_getElem?_getD, List.getElem?_eq_none (by omega)]; rfl)
  refine ⟨?_, ?_, ?_, ?_⟩
  · intro k
    rcases hcase k with h | h
    · exact (h1 _ h.2).1
    · simp only [h]; exact List.nodup_nil
  · intro k s hs
    rcases hcase k with h | h
    · exact (h1 _ h.2).2 s hs
    · simp only [h] at hs; cases hs
  · intro n f t m d hD hm hd
    rw [(cname_iff ..).1 hd]
    exact h2 _ ((mem_directs ..).1 hD) m hm
  · intro k r hr
    rcases hcase k with h | h
    · obtain ⟨⟨n, f, t⟩, hx, hk, m, hm, he⟩ := h3 k h.1 r hr
      exact ⟨n, f, t, m, (mem_directs ..).2 hx, hk, hm, (cname_iff ..).2 he⟩
    · simp only [h] at hr; cases hr

/-- **Disagreement with C111.** A hardware component in a group with one software component: the
software component is linked as an object with relocations, but its image is a copy of this object,
which is never linked. -/
theorem hardware_breaks_image :
    ∃ c : Comp, ∃ i, At c 0 i ∧ i.hardware = false ∧ grouped c 0 i = true ∧
      collectsConstructors c 0 i = true ∧ definesTls c 0 i false = false ∧
      (members c i.space).length = 1 := by
  exact ⟨⟨[⟨"sw", "g", false⟩, ⟨"dev", "g", true⟩], []⟩, ⟨"sw", "g", false⟩, rfl, by decide +kernel⟩

/-- Connections `a` with a method `b_c` and `a_b` with a method `c`. -/
def twice : Comp :=
  ⟨[⟨"x", "g", false⟩, ⟨"y", "g", false⟩, ⟨"w", "g", false⟩, ⟨"z", "g", false⟩],
   [⟨"a", "seL4DirectCall", [⟨0, "f", ["b_c"]⟩], [⟨1, "p", ["b_c"]⟩]⟩,
    ⟨"a_b", "seL4DirectCall", [⟨2, "h", ["c"]⟩], [⟨3, "q", ["c"]⟩]⟩]⟩

/-- **Disagreement with C111.** Two connections, called `a` and `a_b`, with methods called `b_c` and
`c`: the image cannot be linked, although nothing is wrong with the assembly or its instances. -/
theorem same_name_twice : ∃ c objs g, Checked c ∧ Together c ∧ Objects c objs ∧
    (members c g).length > 1 ∧ image c objs g = .error .multiple := by
  refine ⟨twice, _, "g", checked_of _ ?_ ?_ ?_ ?_ ?_, together_of _ ?_,
    objects_of twice [⟨[], ["f_b_c"]⟩, ⟨["p_b_c"], []⟩, ⟨[], ["h_c"]⟩, ⟨["q_c"], []⟩] ?_ ?_ ?_, ?_, ?_⟩ <;>
  decide +kernel

/-- Instances `a` with an interface `b_c` and `a_b` with an interface `c`. -/
def leftOut : Comp :=
  ⟨[⟨"x", "g", false⟩, ⟨"a", "g", false⟩, ⟨"a_b", "g", false⟩],
   [⟨"n1", "seL4DirectCall", [⟨0, "f", ["m"]⟩], [⟨1, "b_c", ["m"]⟩]⟩,
    ⟨"n2", "seL4DirectCall", [⟨0, "h", ["m"]⟩], [⟨2, "c", ["m"]⟩]⟩]⟩

/-- **Disagreement with C111.** Two instances, called `a` and `a_b`, with interfaces called `b_c` and
`c`: the procedures of the second are left out, and the image cannot be linked. -/
theorem interface_left_out : ∃ c objs g, Checked c ∧ Together c ∧ Objects c objs ∧
    (members c g).length > 1 ∧ image c objs g = .error .undefined := by
  refine ⟨leftOut, _, "g", checked_of _ ?_ ?_ ?_ ?_ ?_, together_of _ ?_,
    objects_of leftOut [⟨[], ["f_m", "h_m"]⟩, ⟨["b_c_m"], []⟩, ⟨["c_m"], []⟩] ?_ ?_ ?_, ?_, ?_⟩ <;>
  decide +kernel

/-- A group of three instances that call each other, with an instance of its own address space and a
device. -/
def demo : Comp :=
  ⟨[⟨"x", "g", false⟩, ⟨"dev", "dev", true⟩, ⟨"y", "g", false⟩, ⟨"z", "g", false⟩, ⟨"alone", "alone", false⟩],
   [⟨"one", "seL4DirectCall", [⟨0, "f", ["get", "put"]⟩], [⟨2, "p", ["get", "put"]⟩]⟩,
    ⟨"rpc", "seL4RPCCall", [⟨4, "f", ["get"]⟩], [⟨0, "s", ["get"]⟩]⟩,
    ⟨"two", "seL4DirectCall", [⟨2, "f", ["run"]⟩], [⟨3, "p", ["run"]⟩]⟩,
    ⟨"back", "seL4DirectCall", [⟨3, "b", ["done"]⟩], [⟨0, "b", ["done"]⟩]⟩]⟩

/-- The objects of its instances: each has a function `helper` of its own. -/
def demoObjs : List Obj :=
  [⟨["_camkes_start", "helper", "s_get", "b_done"], ["f_get", "f_put"]⟩, ⟨["_camkes_start"], []⟩,
   ⟨["_camkes_start", "helper", "p_get", "p_put"], ["f_run"]⟩,
   ⟨["_camkes_start", "helper", "p_run"], ["b_done"]⟩, ⟨["_camkes_start", "helper"], []⟩]

theorem demo_checked : Checked demo := by
  refine checked_of _ ?_ ?_ ?_ ?_ ?_ <;> decide +kernel

theorem demo_together : Together demo := by
  refine together_of _ ?_; decide +kernel

theorem demo_objects : Objects demo (fun k => demoObjs.getD k ⟨[], []⟩) := by
  refine objects_of demo demoObjs ?_ ?_ ?_ <;> decide +kernel

theorem demo_unambiguous : Unambiguous demo := by
  refine ⟨?_, ?_, ?_, ?_⟩
  · have h : ∀ x ∈ directs demo, ∀ y ∈ directs demo, ∀ m ∈ x.2.1.methods, ∀ m' ∈ y.2.1.methods,
        x.1.name.toList ++ '_' :: m.toList = y.1.name.toList ++ '_' :: m'.toList → x.1 = y.1 ∧ m = m' := by
      decide +kernel
    intro n f t n' f' t' m m' hD hD' hm hm' he
    exact h _ ((mem_directs ..).1 hD) _ ((mem_directs ..).1 hD') m hm m' hm' he
  · have h : ∀ x ∈ directs demo, ∀ y ∈ directs demo, ∀ i ∈ demo.insts, ∀ i' ∈ demo.insts,
        i.name.toList ++ '_' :: x.2.2.iface.toList = i'.name.toList ++ '_' :: y.2.2.iface.toList →
        demo.insts[x.2.2.inst]? = some i → demo.insts[y.2.2.inst]? = some i' → x.1 = y.1 := by
      decide +kernel
    intro n f t n' f' t' i i' hD hD' hi hi' he
    exact h _ ((mem_directs ..).1 hD) _ ((mem_directs ..).1 hD') i (List.mem_of_getElem? hi) i'
      (List.mem_of_getElem? hi') he hi hi'
  · have h : ∀ x ∈ directs demo, ∀ y ∈ directs demo, ∀ e ∈ [x.2.1, x.2.2], ∀ e' ∈ [y.2.1, y.2.2],
        e.inst = e'.inst → ∀ m ∈ e.methods, ∀ m' ∈ e'.methods, local_ e m = local_ e' m' →
        x.1 = y.1 ∧ m = m' := by
      decide +kernel
    intro n f t n' f' t' e e' m m' s hD hD' he he' hi hm hm' hs hs'
    rw [cname_iff] at hs hs'
    exact h _ ((mem_directs ..).1 hD) _ ((mem_directs ..).1 hD') e (by simpa using he) e' (by simpa using he') hi
      m hm m' hm' (hs.symm.trans hs')
  · have h : ∀ x ∈ directs demo, ∀ e ∈ [x.2.1, x.2.2], ∀ m ∈ e.methods, "_camkes_start" ≠ local_ e m := by
      decide +kernel
    intro n f t e m hD he hm hs
    exact h _ ((mem_directs ..).1 hD) e (by simpa using he) m hm ((cname_iff ..).1 hs)

/-- The image of the example: four calls, each bound to the procedure of the other instance. -/
theorem demo_image : (image demo (fun k => demoObjs.getD k ⟨[], []⟩) "g").toOption =
    some (.linked [((0, "f_get"), (2, "p_get")), ((0, "f_put"), (2, "p_put")), ((2, "f_run"), (3, "p_run")),
      ((3, "b_done"), (0, "b_done"))]) := by decide +kernel

/-- The groups of the example. -/
theorem demo_groups : Enumerates ["alone", "g"] (spaces demo) ∧ (members demo "g").length = 3 ∧
    (members demo "alone").length = 1 := by
  refine ⟨⟨by decide +kernel, ?_⟩, by decide +kernel, by decide +kernel⟩
  intro x
  have : spaces demo = ["g", "g", "g", "alone"] := by decide +kernel
  rw [this]
  simp only [List.mem_cons, List.not_mem_nil, or_false]
  constructor
  · rintro (h | h) <;> simp [h]
  · rintro (h | h | h | h) <;> simp [h]

/-- A connection across address spaces is refused, one within an address space is accepted. -/
theorem demo_renders :
    renders (fun k => if k = 0 then "g" else "h") ⟨"n", "seL4DirectCall", [⟨0, "f", []⟩], [⟨1, "p", []⟩]⟩ = false ∧
    renders (fun _ => "g") ⟨"n", "seL4DirectCall", [⟨0, "f", []⟩], [⟨1, "p", []⟩]⟩ = true := by decide +kernel

end Verif.Colocate
