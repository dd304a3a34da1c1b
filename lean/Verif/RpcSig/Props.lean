import Verif.RpcSig.Steps
import Mathlib.Data.List.Nodup
import Mathlib.Data.List.Perm.Basic
import Mathlib.Tactic.ByContra

/-! Theorems about the C code generated for the methods of an interface. -/

namespace Verif.RpcSig

open Spec

/-- **C125.**  The header declares for each method the function that is promised. -/
theorem header_promised (iface : Name) (m : Method) :
    (header iface m).ret = promisedResult m ∧ (header iface m).name = iface ++ '_' :: m.name ∧
      ParamList (header iface m).params (m.params.flatMap promised) :=
  ⟨header_result iface m, rfl, header_params iface m⟩

/-- **C125.**  The function generated for the client is the one that the header declares (its
parameters have a prefix). -/
theorem client_as_declared (iface : Name) (m : Method) :
    ∃ f ps, clientFn iface m = some f ∧ f.ret = (header iface m).ret ∧
      f.name = (header iface m).name ∧ ParamList (header iface m).params ps ∧
      ParamList f.params (ps.map fun q => (q.1, "p_".toList ++ q.2)) := by
  refine ⟨_, m.params.flatMap promised, clientFn_eq iface m, ?_, rfl, header_params iface m, ?_⟩
  · rw [header_result]; exact result_eq m
  · rw [List.map_flatMap]; exact commas_params pre m.params

/-- **C125.**  The function that the server calls is declared as in the header. -/
theorem server_as_declared (iface : Name) (m : Method) :
    ∃ f, serverExtern iface m = some f ∧ f.ret = (header iface m).ret ∧
      f.name = (header iface m).name ∧ f.params = (header iface m).params := by
  refine ⟨_, serverExtern_eq iface m, ?_, rfl, rfl⟩
  rw [header_result]; exact result_eq m

/-! ## Names -/

/-- What is appended to the names of parameters. -/
def suffixes : List Name :=
  ["", "_sz", "_ptr", "_sz_ptr", "_ptr_sz", "_ptr_arr", "_ptr_str"].map String.toList

/-- The endings that names of parameters do not have. -/
def ends : List Name := ["_sz", "_ptr", "_ptr_arr", "_ptr_str"].map String.toList

theorem suffixes_cut : ∀ s ∈ suffixes, ∀ t ∈ suffixes, s <:+ t → s = t ∨
    ∃ e ∈ ends, e <:+ t.take (t.length - s.length) := by decide +kernel

theorem names_apart (x y : Name) (hx : ∀ e ∈ ends, ¬ e <:+ x) (hy : ∀ e ∈ ends, ¬ e <:+ y)
    (s t : Name) (hs : s ∈ suffixes) (ht : t ∈ suffixes) (h : x ++ s = y ++ t) : x = y ∧ s = t := by
  have key : ∀ (x y : Name), (∀ e ∈ ends, ¬ e <:+ x) → ∀ s ∈ suffixes, ∀ t ∈ suffixes,
      s.length ≤ t.length → x ++ s = y ++ t → x = y ∧ s = t := by
    intro x y hx s hs t ht hl h
    have hsuf : s <:+ t := List.suffix_of_suffix_length_le ⟨x, h⟩ ⟨y, rfl⟩ hl
    rcases suffixes_cut s hs t ht hsuf with rfl | ⟨e, he, hc⟩
    · exact ⟨List.append_cancel_right h, rfl⟩
    · exfalso
      obtain ⟨r, rfl⟩ := hsuf
      have : x = y ++ r := List.append_cancel_right (by rw [h, List.append_assoc])
      have h2 : (r ++ s).take ((r ++ s).length - s.length) = r := by simp
      rw [h2] at hc
      exact hx e he (this ▸ hc.trans (List.suffix_append y r))
  rcases Nat.le_total s.length t.length with hl | hl
  · exact key x y hx s hs t ht hl h
  · obtain ⟨a, b⟩ := key y x hy t ht s hs hl h.symm
    exact ⟨a.symm, b.symm⟩

/-- The conditions on the names of parameters, for a list of them. -/
structure Named (ps : List Param) : Prop where
  differ : (ps.map (·.name)).Nodup
  ends : ∀ p ∈ ps, ∀ e ∈ ends, ¬ e <:+ p.name

theorem named (m : Method) (h : Apart m) : Named m.params :=
  ⟨h.differ, fun p hp e he => by
    obtain ⟨s, hs, rfl⟩ := List.mem_map.1 he
    exact h.ends p hp s hs⟩

theorem Named.filter {ps : List Param} (h : Named ps) (f : Param → Bool) : Named (ps.filter f) :=
  ⟨h.differ.sublist ((List.filter_sublist).map _), fun p hp => h.ends p (List.mem_filter.1 hp).1⟩

theorem names_nodup (ps : List Param) (h : Named ps) (f : Param → List Name)
    (hf : ∀ p, (f p).Nodup ∧ ∀ s ∈ f p, s ∈ suffixes) :
    (ps.flatMap fun p => (f p).map fun s => pre ++ p.name ++ s).Nodup := by
  rw [List.nodup_flatMap]
  refine ⟨fun p _ => ?_, ?_⟩
  · exact (hf p).1.map fun a b hab => List.append_cancel_left hab
  · have hd : List.Pairwise (fun a b : Param => a.name ≠ b.name) ps :=
      List.pairwise_map.1 h.differ
    refine hd.imp_of_mem fun {a b} ha hb hab => ?_
    intro x hx hy
    obtain ⟨s, hs, rfl⟩ := List.mem_map.1 hx
    obtain ⟨t, ht, hst⟩ := List.mem_map.1 hy
    simp only [List.append_assoc] at hst
    have := List.append_cancel_left hst
    exact hab (names_apart _ _ (h.ends b hb) (h.ends a ha) t s ((hf b).2 t ht) ((hf a).2 s hs)
      this).1.symm

theorem once_names (ps : List Param) (h : Named ps) (f : Param → List Name)
    (hf : ∀ p, (f p).Nodup ∧ ∀ s ∈ f p, s ∈ suffixes) (others : List Name) (ho : others.Nodup)
    (hp : ∀ n ∈ others, ¬ pre <+: n) :
    (others ++ ps.flatMap fun p => (f p).map fun s => pre ++ p.name ++ s).Nodup := by
  refine List.nodup_append.2 ⟨ho, names_nodup ps h f hf, ?_⟩
  intro a ha b hb hab
  obtain ⟨p, -, hp2⟩ := List.mem_flatMap.1 hb
  obtain ⟨s, -, rfl⟩ := List.mem_map.1 hp2
  exact hp a ha (hab ▸ ⟨p.name ++ s, by rw [List.append_assoc]⟩)

/-- What is appended for the parameters of a function. -/
def paramSuffixes (p : Param) : List Name := if p.array then ["_sz".toList, []] else [[]]

theorem paramSuffixes_ok (p : Param) :
    (paramSuffixes p).Nodup ∧ ∀ s ∈ paramSuffixes p, s ∈ suffixes := by
  unfold paramSuffixes
  cases p.array
  · exact (by decide +kernel : ([[]] : List Name).Nodup ∧ ∀ s ∈ ([[]] : List Name), s ∈ suffixes)
  · exact (by decide +kernel : (["_sz".toList, []] : List Name).Nodup ∧
      ∀ s ∈ (["_sz".toList, []] : List Name), s ∈ suffixes)

theorem inDecls_suffixes (p : Param) :
    (inDecls pre p).map (·.2) = (paramSuffixes p).map fun s => pre ++ p.name ++ s := by
  rw [inDecls_names]
  unfold paramSuffixes
  cases p.array <;> simp [sz]

theorem outDecls_suffixes (p : Param) :
    (outDecls pre p).map (·.2) = (paramSuffixes p).map fun s => pre ++ p.name ++ s := by
  unfold paramSuffixes outDecls
  cases p.array <;> simp [sz]

theorem map_names_flatMap (ps : List Param) (g : Param → List (CTy × Name)) (f : Param → List Name)
    (h : ∀ p, (g p).map (·.2) = (f p).map fun s => pre ++ p.name ++ s) :
    (ps.flatMap g).map (·.2) = ps.flatMap fun p => (f p).map fun s => pre ++ p.name ++ s := by
  rw [List.map_flatMap]
  congr 1
  funext p
  exact h p

theorem body_names (ps : List (CTy × Name)) (ls : List Local) :
    (body ps ls).map (·.1) = ps.map (·.2) ++ ls.map (·.name) := by
  simp [body, Function.comp_def]

theorem clientLocals_names (m : Method) :
    ((clientLocals m).map (·.name)).Nodup ∧ ∀ n ∈ (clientLocals m).map (·.name), ¬ pre <+: n := by
  unfold clientLocals
  cases m.ret
  · exact (by decide +kernel : (["size", "length", "err"].map String.toList).Nodup ∧
      ∀ n ∈ ["size", "length", "err"].map String.toList, ¬ pre <+: n)
  · exact (by decide +kernel : (["size", "return_val", "return_ptr", "length", "err"].map
      String.toList).Nodup ∧ ∀ n ∈ ["size", "return_val", "return_ptr", "length", "err"].map
      String.toList, ¬ pre <+: n)

theorem clientScope_once (m : Method) (h : Apart m) : Once (clientScope m) := by
  unfold Once clientScope
  rw [body_names, map_names_flatMap _ _ _ inDecls_suffixes]
  have := once_names m.params (named m h) paramSuffixes paramSuffixes_ok
    ((clientLocals m).map (·.name)) (clientLocals_names m).1 (clientLocals_names m).2
  exact List.nodup_append_comm.1 this

/-- What is appended for the local variables of `<m>_marshal_inputs`. -/
def localSuffixes (p : Param) : List Name :=
  if p.array then ["_ptr_sz".toList, "_ptr_arr".toList]
  else if p.ty = tString then ["_ptr_str".toList] else ["_ptr".toList]

theorem marshalLocals_names (p : Param) :
    (marshalLocals p).map (·.name) = (localSuffixes p).map fun s => pre ++ p.name ++ s := by
  obtain ⟨dir, array, ty, name⟩ := p
  by_cases hs : ty = tString
  · subst hs
    cases dir <;> cases array <;> rfl
  · cases dir <;> cases array <;> simp only [marshalLocals, localSuffixes, hs, if_false, if_true,
      Bool.false_eq_true, reduceCtorEq] <;> rfl

theorem bothSuffixes_ok (p : Param) :
    (paramSuffixes p ++ localSuffixes p).Nodup ∧
      ∀ s ∈ paramSuffixes p ++ localSuffixes p, s ∈ suffixes := by
  unfold paramSuffixes localSuffixes
  cases p.array
  · by_cases hs : p.ty = tString
    · rw [hs]
      exact (by decide +kernel : ([[], "_ptr_str".toList] : List Name).Nodup ∧
        ∀ s ∈ ([[], "_ptr_str".toList] : List Name), s ∈ suffixes)
    · simp only [hs, if_false, Bool.false_eq_true]
      exact (by decide +kernel : ([[], "_ptr".toList] : List Name).Nodup ∧
        ∀ s ∈ ([[], "_ptr".toList] : List Name), s ∈ suffixes)
  · exact (by decide +kernel :
      (["_sz".toList, [], "_ptr_sz".toList, "_ptr_arr".toList] : List Name).Nodup ∧
        ∀ s ∈ (["_sz".toList, [], "_ptr_sz".toList, "_ptr_arr".toList] : List Name), s ∈ suffixes)

/-- The scope of the body of `<m>_marshal_inputs`. -/
def marshalScope (m : Method) : Scope :=
  body (headSize ++ (m.params.filter isInput).flatMap (inDecls pre))
    ((m.params.filter isInput).flatMap marshalLocals)

theorem head_names (l : List (CTy × Name)) (h : l.map (·.2) = ["base".toList, "size".toList]) :
    (l.map (·.2)).Nodup ∧ ∀ n ∈ l.map (·.2), ¬ pre <+: n := by
  rw [h]
  decide +kernel

theorem marshalScope_once (m : Method) (h : Apart m) : Once (marshalScope m) := by
  unfold Once marshalScope
  rw [body_names, List.map_append, map_names_flatMap _ _ _ inDecls_suffixes, List.map_flatMap]
  have e : (fun p => (marshalLocals p).map (·.name)) =
      fun p => (localSuffixes p).map fun s => pre ++ p.name ++ s := by
    funext p; exact marshalLocals_names p
  rw [e]
  obtain ⟨h1, h2⟩ := head_names headSize rfl
  have := once_names (m.params.filter isInput) ((named m h).filter _)
    (fun p => paramSuffixes p ++ localSuffixes p) bothSuffixes_ok (headSize.map (·.2)) h1 h2
  rw [List.append_assoc]
  refine (List.Perm.nodup_iff (List.Perm.append_left _ ?_)).1 this
  simp only [List.map_append]
  exact (List.flatMap_append_perm _ _ _).symm

/-- What is appended for the variables of the block that serves a method. -/
def serverSuffixes (p : Param) : List Name :=
  if p.array then ["_sz".toList, "_sz_ptr".toList, [], "_ptr".toList] else [[], "_ptr".toList]

theorem serverParam_names (p : Param) :
    (serverParam p).map (·.name) = (serverSuffixes p).map fun s => pre ++ p.name ++ s := by
  rw [serverParam_eq]
  unfold serverSuffixes
  cases p.array <;> simp [sz, szPtr, ptr]

theorem serverSuffixes_ok (p : Param) :
    (serverSuffixes p).Nodup ∧ ∀ s ∈ serverSuffixes p, s ∈ suffixes := by
  unfold serverSuffixes
  cases p.array
  · exact (by decide +kernel : ([[], "_ptr".toList] : List Name).Nodup ∧
      ∀ s ∈ ([[], "_ptr".toList] : List Name), s ∈ suffixes)
  · exact (by decide +kernel :
      (["_sz".toList, "_sz_ptr".toList, [], "_ptr".toList] : List Name).Nodup ∧
        ∀ s ∈ (["_sz".toList, "_sz_ptr".toList, [], "_ptr".toList] : List Name), s ∈ suffixes)

theorem prefix_cut (n r : Name) (h : pre <+: n ++ '_' :: r) : pre <+: n ++ ['_'] := by
  have e : pre = ['p', '_'] := rfl
  rw [e] at h ⊢
  match n with
  | [] => simp [List.cons_prefix_cons] at h
  | [a] => simpa [List.cons_prefix_cons] using h
  | a :: b :: n => simpa [List.cons_prefix_cons] using h

/-- The variables of the block that serves a method, but for those of the parameters. -/
def serverOthers (m : Method) : List Name :=
  "err".toList :: m.ret.toList.flatMap fun _ => [retName m, retPtr m]

theorem serverLocals_names (m : Method) :
    (serverLocals m).map (·.name) =
      (m.params.flatMap fun p => (serverSuffixes p).map fun s => pre ++ p.name ++ s) ++
        serverOthers m := by
  unfold serverLocals serverOthers
  rw [List.map_append, List.map_append, List.map_flatMap, List.append_assoc]
  congr 1
  · congr 1
    funext p
    exact serverParam_names p
  · cases m.ret with
    | none => rfl
    | some t =>
      dsimp only
      split <;> rfl

theorem serverOthers_ok (iface : Name) (m : Method) (h : Plain iface m) :
    (serverOthers m).Nodup ∧ ∀ n ∈ serverOthers m, ¬ pre <+: n := by
  have e1 : ¬ pre <+: "err".toList := by decide +kernel
  have e2 : ¬ pre <+: retName m := fun hp => h.method (prefix_cut _ _ hp)
  have e3 : ¬ pre <+: retPtr m := fun hp => h.method (prefix_cut _ _ hp)
  have l1 : "err".toList.length = 3 := by decide +kernel
  have l2 : "_ret".toList.length = 4 := by decide +kernel
  have l3 : "_ret_ptr".toList.length = 8 := by decide +kernel
  have n1 : "err".toList ≠ retName m := fun he => by
    have := congrArg List.length he
    rw [l1, retName, List.length_append, l2] at this
    omega
  have n2 : "err".toList ≠ retPtr m := fun he => by
    have := congrArg List.length he
    rw [l1, retPtr, List.length_append, l3] at this
    omega
  have n3 : retName m ≠ retPtr m := fun he => by
    have := congrArg List.length he
    rw [retName, retPtr, List.length_append, l2, List.length_append, l3] at this
    omega
  unfold serverOthers
  cases m.ret with
  | none => exact ⟨List.nodup_singleton _, fun n hn => by
      rw [List.mem_singleton.1 hn]; exact e1⟩
  | some t =>
    refine ⟨?_, ?_⟩
    · refine List.nodup_cons.2 ⟨?_, List.nodup_cons.2 ⟨?_, List.nodup_singleton _⟩⟩
      · intro hm
        rcases List.mem_cons.1 hm with hm | hm
        · exact n1 hm
        · exact n2 (List.mem_singleton.1 hm)
      · intro hm
        exact n3 (List.mem_singleton.1 hm)
    · intro n hn
      rcases List.mem_cons.1 hn with rfl | hn
      · exact e1
      · rcases List.mem_cons.1 hn with rfl | hn
        · exact e2
        · rw [List.mem_singleton.1 hn]; exact e3

theorem serverScope_names (m : Method) :
    (serverScope m).map (·.1) =
      (m.params.flatMap fun p => (serverSuffixes p).map fun s => pre ++ p.name ++ s) ++
        serverOthers m := by
  unfold serverScope
  rw [body_names, serverLocals_names]
  rfl

theorem serverScope_once (iface : Name) (m : Method) (h : Apart m) (hp : Plain iface m) :
    Once (serverScope m) := by
  unfold Once
  rw [serverScope_names]
  obtain ⟨h1, h2⟩ := serverOthers_ok iface m hp
  exact List.nodup_append_comm.1
    (once_names m.params (named m h) serverSuffixes serverSuffixes_ok _ h1 h2)

theorem not_mem_params (ps : List Param) (f : Param → List Name) (n : Name) (hn : ¬ pre <+: n) :
    n ∉ ps.flatMap fun p => (f p).map fun s => pre ++ p.name ++ s := by
  intro h
  obtain ⟨p, -, hp⟩ := List.mem_flatMap.1 h
  obtain ⟨s, -, rfl⟩ := List.mem_map.1 hp
  exact hn ⟨p.name ++ s, by rw [List.append_assoc]⟩

theorem callee_client (iface : Name) (m : Method) (h : Plain iface m) (r : Name)
    (hr : 12 ≤ r.length) : m.name ++ '_' :: r ∉ (clientScope m).map (·.1) := by
  unfold clientScope
  rw [body_names, map_names_flatMap _ _ _ inDecls_suffixes, List.mem_append]
  rintro (hm | hm)
  · exact not_mem_params _ _ _ (fun hp => h.method (prefix_cut _ _ hp)) hm
  · have hl : ∀ n ∈ (clientLocals m).map (·.name), n.length ≤ 10 := by
      unfold clientLocals
      cases m.ret
      · exact (by decide +kernel : ∀ n ∈ ["size", "length", "err"].map String.toList, n.length ≤ 10)
      · exact (by decide +kernel : ∀ n ∈ ["size", "return_val", "return_ptr", "length", "err"].map
          String.toList, n.length ≤ 10)
    have := hl _ hm
    rw [List.length_append, List.length_cons] at this
    omega

theorem callee_server (m : Method) (n r : Name) (hp : ¬ pre <+: n ++ ['_'])
    (h1 : n ++ '_' :: r ≠ retName m) (h2 : n ++ '_' :: r ≠ retPtr m) :
    n ++ '_' :: r ∉ (serverScope m).map (·.1) := by
  rw [serverScope_names, List.mem_append]
  rintro (hm | hm)
  · exact not_mem_params _ _ _ (fun h => hp (prefix_cut _ _ h)) hm
  · unfold serverOthers at hm
    rcases List.mem_cons.1 hm with he | hm
    · have : '_' ∈ "err".toList := he ▸ by simp
      exact absurd this (by decide +kernel)
    · obtain ⟨t, -, ht⟩ := List.mem_flatMap.1 hm
      rcases List.mem_cons.1 ht with ht | ht
      · exact h1 ht
      · exact h2 (List.mem_singleton.1 ht)

/-! ## The client -/

theorem clientLocals_ok (m : Method) : InitOk (clientScope m) (clientLocals m) := by
  intro v hv e he
  cases hr : m.ret with
  | none =>
    unfold clientLocals at hv
    rw [hr] at hv
    rcases hv with _ | ⟨_, _ | ⟨_, _ | ⟨_, hv⟩⟩⟩ <;> first | exact absurd he (by simp) | cases hv
  | some t =>
    have hm : ("return_val".toList, (⟨false, (cType t).1, (cType t).2⟩ : CTy)) ∈ clientScope m := by
      refine mem_body_local (v := ⟨⟨false, (cType t).1, (cType t).2⟩, "return_val".toList, none⟩) ?_
      unfold clientLocals
      rw [hr]
      dsimp only
      rw [showType_eq]
      exact .tail _ (.head _)
    unfold clientLocals at hv
    rw [hr] at hv
    rcases hv with _ | ⟨_, _ | ⟨_, _ | ⟨_, _ | ⟨_, _ | ⟨_, hv⟩⟩⟩⟩⟩
    · exact absurd he (by simp)
    · exact absurd he (by simp)
    · cases he
      refine ⟨_, .addr hm, ?_⟩
      rw [showType_eq]
      exact assignable_refl _
    · exact absurd he (by simp)
    · exact absurd he (by simp)
    · cases hv

/-- **C125** (partial: names must be kept apart).  In the client's function every name is declared
once, the variables are initialised with values of their types, the calls that put the inputs into a
message and take the outputs out of one have the arguments that the called functions expect, and
what is returned has the type of the result. -/
theorem client_correct_partial (iface : Name) (m : Method) (h : Apart m) (hp : Plain iface m) :
    ∃ f g ps, clientFn iface m = some f ∧ marshalInputFn m = some g ∧ ParamList f.params ps ∧
      Once (body ps (clientLocals m)) ∧ InitOk (body ps (clientLocals m)) (clientLocals m) ∧
      Correct (body ps (clientLocals m)) (callMarshalInput m) g ∧
      Correct (body ps (clientLocals m)) (callUnmarshalOutput m) (unmarshalOutputFn m) ∧
      (∀ t, f.ret = some t → ∃ e, clientReturn m = some e ∧
        HasType (body ps (clientLocals m)) e t) ∧
      (f.ret = none → clientReturn m = none) := by
  obtain ⟨g, es, qs, hg, hgn, ha, hq, hf⟩ := client_marshals m
  obtain ⟨es', qs', ha', hq', hf'⟩ := client_unmarshals m
  refine ⟨_, g, m.params.flatMap (inDecls pre), clientFn_eq iface m, hg, commas_params pre m.params,
    clientScope_once m h, clientLocals_ok m, ⟨hgn.symm, ?_, es, qs, ha, hq, hf⟩,
    ⟨rfl, ?_, es', qs', ha', hq', hf'⟩, ?_, ?_⟩
  · exact callee_client iface m hp "marshal_inputs".toList (by decide +kernel)
  · exact callee_client iface m hp "unmarshal_outputs".toList (by decide +kernel)
  · intro t ht
    obtain ⟨u, hu, rfl⟩ := Option.map_eq_some_iff.1 ht
    refine ⟨.deref "return_ptr".toList, by simp only [clientReturn, hu, Option.isSome_some, if_true],
      ?_⟩
    rw [showType_eq]
    refine .deref (mem_body_local (v := ⟨⟨false, (cType u).1, (cType u).2 + 1⟩, "return_ptr".toList,
      some (.addr "return_val".toList)⟩) ?_)
    unfold clientLocals
    rw [hu]
    dsimp only
    rw [showType_eq]
    exact .tail _ (.tail _ (.head _))
  · intro hn
    have : m.ret = none := by simpa using hn
    simp [clientReturn, this]

/-! ## The server -/

theorem serverScope_ret_var (m : Method) (t : Name) (h : m.ret = some t) :
    (retName m, (⟨false, (cType t).1, (cType t).2⟩ : CTy)) ∈ serverScope m := by
  refine mem_body_local (v := ⟨⟨false, (cType t).1, (cType t).2⟩, retName m, none⟩) ?_
  unfold serverLocals
  refine List.mem_append_right _ ?_
  rw [h]
  dsimp only
  by_cases ht : t = "string".toList
  · subst ht
    exact .head _
  · rw [if_neg (show ¬ t = tString from ht), showType_eq]
    exact .head _

theorem serverLocals_ok (m : Method) : InitOk (serverScope m) (serverLocals m) := by
  intro v hv e he
  unfold serverLocals at hv
  rcases List.mem_append.1 hv with hv | hv
  · rcases List.mem_append.1 hv with hv | hv
    · obtain ⟨p, hp, hv⟩ := List.mem_flatMap.1 hv
      have hs := serverScope_param m p hp
      rw [serverParam_eq] at hv hs
      cases ha : p.array with
      | false =>
        rw [ha] at hv hs
        rcases hv with _ | ⟨_, _ | ⟨_, hv⟩⟩
        · exact absurd he (by simp)
        · cases he
          exact ⟨_, .addr (hs _ (.head _)), assignable_refl _⟩
        · cases hv
      | true =>
        rw [ha] at hv hs
        rcases hv with _ | ⟨_, _ | ⟨_, _ | ⟨_, _ | ⟨_, hv⟩⟩⟩⟩
        · exact absurd he (by simp)
        · cases he
          exact ⟨_, .addr (hs _ (.head _)), assignable_refl _⟩
        · exact absurd he (by simp)
        · cases he
          exact ⟨_, .addr (hs _ (.tail _ (.tail _ (.head _)))), assignable_refl _⟩
        · cases hv
    · rw [List.mem_singleton.1 hv] at he
      exact absurd he (by simp)
  · cases hr : m.ret with
    | none =>
      rw [hr] at hv
      cases hv
    | some t =>
      have hs := serverScope_ret_var m t hr
      rw [hr] at hv
      dsimp only at hv
      by_cases ht : t = "string".toList
      · subst ht
        rcases hv with _ | ⟨_, _ | ⟨_, hv⟩⟩
        · exact absurd he (by simp)
        · cases he
          exact ⟨_, .addr hs, assignable_refl _⟩
        · cases hv
      · rw [if_neg (show ¬ t = tString from ht), showType_eq] at hv
        rcases hv with _ | ⟨_, _ | ⟨_, hv⟩⟩
        · exact absurd he (by simp)
        · cases he
          exact ⟨_, .addr hs, assignable_refl _⟩
        · cases hv

/-- **C125** (partial: names must be kept apart).  In the server's block for a method every name is
declared once, the variables are initialised with values of their types, the calls that take the
inputs out of a message, that run the implementation and that put the outputs into a message have
the arguments that the called functions expect, and the result of the implementation is assigned to
a variable of its type. -/
theorem server_correct_partial (iface : Name) (m : Method) (h : Apart m) (hp : Plain iface m) :
    ∃ f g, serverExtern iface m = some f ∧ marshalOutputFn m = some g ∧
      Once (body [] (serverLocals m)) ∧ InitOk (body [] (serverLocals m)) (serverLocals m) ∧
      Correct (body [] (serverLocals m)) (callUnmarshalInput m) (unmarshalInputFn m) ∧
      Correct (body [] (serverLocals m)) (callImpl iface m) f ∧
      Correct (body [] (serverLocals m)) (callMarshalOutput m) g ∧
      (∀ t, f.ret = some t → ∃ e, implResult m = some e ∧
        HasType (body [] (serverLocals m)) e t) ∧
      (f.ret = none → implResult m = none) := by
  obtain ⟨g, hg, hgn, hq⟩ := marshalOutput_params m
  refine ⟨_, g, serverExtern_eq iface m, hg, serverScope_once iface m h hp, serverLocals_ok m,
    ⟨rfl, ?_, _, _, callUnmarshalInput_args m, unmarshalInput_params m, ?_⟩,
    ⟨rfl, ?_, _, _, callImpl_args iface m, header_params iface m, ?_⟩,
    ⟨hgn.symm, ?_, _, _, callMarshalOutput_args m, hq, ?_⟩, ?_, ?_⟩
  · refine callee_server m m.name "unmarshal_inputs".toList hp.method ?_ ?_
    · exact fun e => absurd (List.append_cancel_left e) (by decide +kernel)
    · exact fun e => absurd (List.append_cancel_left e) (by decide +kernel)
  · exact List.rel_append (head_fits_unsigned _)
      (forall₂_flatMap _ _ _ _ fun p hp => serverArgs_fit m p (List.mem_filter.1 hp).1)
  · exact callee_server m iface m.name hp.iface hp.result hp.resultPtr
  · exact forall₂_flatMap _ _ _ _ fun p hp => implArgs_fit m p hp
  · refine callee_server m m.name "marshal_outputs".toList hp.method ?_ ?_
    · exact fun e => absurd (List.append_cancel_left e) (by decide +kernel)
    · exact fun e => absurd (List.append_cancel_left e) (by decide +kernel)
  · refine List.rel_append (List.rel_append (head_fits_unsigned _)
      (ret_fits _ m _ _ _ fun t ht => serverScope_ret m t ht))
      (forall₂_flatMap _ _ _ _ fun p hp => ?_)
    rw [inDecls_output p (mem_output _ p hp)]
    exact serverArgs_fit m p (List.mem_filter.1 hp).1
  · intro t ht
    obtain ⟨u, hu, rfl⟩ := Option.map_eq_some_iff.1 ht
    refine ⟨.deref (retPtr m), by simp only [implResult, hu, Option.isSome_some, if_true], ?_⟩
    rw [showType_eq]
    exact .deref (serverScope_ret m u hu)
  · intro hn
    have : m.ret = none := by simpa using hn
    simp [implResult, this]

/-! ## Messages -/

theorem forall₂_map {α β γ : Type} (R : β → γ → Prop) (f : α → β) (g : α → γ) (l : List α)
    (h : ∀ x ∈ l, R (f x) (g x)) : List.Forall₂ R (l.map f) (l.map g) := by
  induction l with
  | nil => exact .nil
  | cons a l ih => exact .cons (h a (by simp)) (ih fun x hx => h x (by simp [hx]))

theorem marshalScope_param (m : Method) (p : Param) (hp : p ∈ m.params.filter isInput)
    (q : CTy × Name) (hq : q ∈ inDecls pre p) : (q.2, q.1) ∈ marshalScope m :=
  mem_body_param (List.mem_append_right _ (List.mem_flatMap.2 ⟨p, hp, hq⟩))

theorem marshalScope_local (m : Method) (p : Param) (hp : p ∈ m.params.filter isInput)
    (v : Local) (hv : v ∈ marshalLocals p) : (v.name, v.ty) ∈ marshalScope m :=
  mem_body_local (List.mem_flatMap.2 ⟨p, hp, hv⟩)

theorem marshalLocals_ok (m : Method) :
    InitOk (marshalScope m) ((m.params.filter isInput).flatMap marshalLocals) := by
  intro v hv e he
  obtain ⟨p, hp, hv⟩ := List.mem_flatMap.1 hv
  have hd := mem_input m.params p hp
  have hs := marshalScope_param m p hp
  clear hp
  obtain ⟨dir, array, ty, name⟩ := p
  by_cases ht : ty = "string".toList
  · subst ht
    simp only [inDecls, promised, cType_string, decide_true] at hs
    cases dir <;> cases array <;> simp only [List.mem_cons, reduceCtorEq, List.not_mem_nil,
      or_self, or_false, or_true] at hd
    all_goals clear hd
    · rcases hv with _ | ⟨_, hv⟩
      · cases he
        exact ⟨_, .var (hs _ (.head _)), assignable_refl _⟩
      · cases hv
    · rcases hv with _ | ⟨_, _ | ⟨_, hv⟩⟩
      · cases he
        exact ⟨_, .addr (hs (_, sz pre name) (by
          simp only [List.map, sz, List.append_assoc]; exact .head _)), assignable_refl _⟩
      · cases he
        exact ⟨_, .var (hs _ (.tail _ (.head _))), assignable_refl _⟩
      · cases hv
    · rcases hv with _ | ⟨_, hv⟩
      · cases he
        exact ⟨_, .deref (hs _ (.head _)), rfl, rfl, .inr (.inr ⟨rfl, rfl⟩)⟩
      · cases hv
    · rcases hv with _ | ⟨_, _ | ⟨_, hv⟩⟩
      · cases he
        exact ⟨_, .var (hs (_, sz pre name) (by
          simp only [List.map, sz, List.append_assoc]; exact .head _)), assignable_refl _⟩
      · cases he
        exact ⟨_, .deref (hs _ (.tail _ (.head _))), assignable_refl _⟩
      · cases hv
    · rcases hv with _ | ⟨_, hv⟩
      · cases he
        exact ⟨_, .deref (hs _ (.head _)), rfl, rfl, .inr (.inr ⟨rfl, rfl⟩)⟩
      · cases hv
    · rcases hv with _ | ⟨_, _ | ⟨_, hv⟩⟩
      · cases he
        exact ⟨_, .var (hs (⟨false, "size_t".toList, 1⟩, sz pre name) (by
          simp only [List.map, sz, List.append_assoc]; exact .head _)), rfl, rfl,
          .inr (.inr ⟨rfl, rfl⟩)⟩
      · cases he
        exact ⟨_, .deref (hs _ (.tail _ (.head _))), assignable_refl _⟩
      · cases hv
  · have hk := cType_not_string ht
    simp only [inDecls, promised, hk, ht, decide_false] at hs
    simp only [marshalLocals, tString, ht, if_false, showType_eq, hk] at hv
    cases dir <;> cases array <;> simp only [List.mem_cons, reduceCtorEq, List.not_mem_nil,
      or_self, or_false, or_true] at hd
    all_goals clear hd
    · rcases hv with _ | ⟨_, hv⟩
      · cases he
        exact ⟨_, .addr (hs _ (.head _)), assignable_refl _⟩
      · cases hv
    · rcases hv with _ | ⟨_, _ | ⟨_, hv⟩⟩
      · cases he
        exact ⟨_, .addr (hs (_, sz pre name) (by
          simp only [List.map, sz, List.append_assoc]; exact .head _)), assignable_refl _⟩
      · cases he
        exact ⟨_, .var (hs _ (.tail _ (.head _))), assignable_refl _⟩
      · cases hv
    · rcases hv with _ | ⟨_, hv⟩
      · cases he
        exact ⟨_, .var (hs _ (.head _)), assignable_refl _⟩
      · cases hv
    · rcases hv with _ | ⟨_, _ | ⟨_, hv⟩⟩
      · cases he
        exact ⟨_, .var (hs (_, sz pre name) (by
          simp only [List.map, sz, List.append_assoc]; exact .head _)), assignable_refl _⟩
      · cases he
        exact ⟨_, .deref (hs _ (.tail _ (.head _))), rfl, rfl, .inr (.inr ⟨rfl, rfl⟩)⟩
      · cases hv
    · rcases hv with _ | ⟨_, hv⟩
      · cases he
        exact ⟨_, .var (hs _ (.head _)), rfl, rfl, .inr (.inr ⟨rfl, rfl⟩)⟩
      · cases hv
    · rcases hv with _ | ⟨_, _ | ⟨_, hv⟩⟩
      · cases he
        exact ⟨_, .var (hs (⟨false, "size_t".toList, 1⟩, sz pre name) (by
          simp only [List.map, sz, List.append_assoc]; exact .head _)), rfl, rfl,
          .inr (.inr ⟨rfl, rfl⟩)⟩
      · cases he
        exact ⟨_, .deref (hs _ (.tail _ (.head _))), rfl, rfl, .inr (.inr ⟨rfl, rfl⟩)⟩
      · cases hv

theorem marshalInput_puts (m : Method) (p : Param) (hp : p ∈ m.params.filter isInput) :
    Puts (marshalScope m) (marshalInputOp p) (field p.array p.ty) := by
  have hs := marshalScope_local m p hp
  clear hp
  obtain ⟨dir, array, ty, name⟩ := p
  by_cases ht : ty = "string".toList
  · subst ht
    cases array
    · cases dir <;> exact .string (.var (hs ⟨⟨true, _, 1⟩, _, _⟩ (.head _)))
    · cases dir
      · exact .strings (.var (hs ⟨⟨false, _, 1⟩, _, _⟩ (.head _)))
          (.var (hs ⟨⟨false, _, 2⟩, _, _⟩ (.tail _ (.head _))))
      all_goals
        have a := hs ⟨⟨true, "size_t".toList, 1⟩, pre ++ name ++ "_ptr_sz".toList,
          some (.var (sz pre name))⟩ (.head _)
        have b := hs ⟨⟨false, "char".toList, 2⟩, pre ++ name ++ "_ptr_arr".toList,
          some (.deref (pre ++ name))⟩ (.tail _ (.head _))
        exact .strings (.var a) (.var b)
  · simp only [marshalLocals, tString, ht, if_false, showType_eq] at hs
    cases array <;>
      simp only [marshalInputOp, field, ht, tString, decide_false, if_true, if_false,
        Bool.false_eq_true]
    · cases dir
      · exact .value (.var (hs ⟨⟨false, _, _⟩, _, _⟩ (.head _)))
      all_goals exact .value (.var (hs ⟨⟨true, _, _⟩, _, _⟩ (.head _)))
    · cases dir
      · exact .array (.var (hs ⟨⟨false, _, 1⟩, _, _⟩ (.head _)))
          (.var (hs ⟨⟨true, _, _⟩, _, _⟩ (.tail _ (.head _))))
      all_goals exact .array (.var (hs ⟨⟨true, _, 1⟩, _, _⟩ (.head _)))
                  (.var (hs ⟨⟨true, _, _⟩, _, _⟩ (.tail _ (.head _))))

theorem unmarshal_takes (s : Scope) (p : Param) (h : ∀ q ∈ outDecls pre p, (q.2, q.1) ∈ s) :
    Takes s (unmarshalOp p) (field p.array p.ty) := by
  obtain ⟨dir, array, ty, name⟩ := p
  by_cases ht : ty = "string".toList
  · subst ht
    cases array
    · exact .string (.var (h (⟨false, _, 2⟩, _) (.head _)))
    · exact .strings (.var (h (⟨false, _, 1⟩, _) (.head _)))
        (.var (h (⟨false, _, 3⟩, _) (.tail _ (.head _))))
  · cases array <;>
      simp only [unmarshalOp, field, ht, tString, decide_false, if_true, if_false,
        Bool.false_eq_true]
    · exact .value (.var (h (⟨false, _, _⟩, _) (.head _)))
    · exact .array (.var (h (⟨false, _, 1⟩, _) (.head _)))
        (.var (h (⟨false, _, _⟩, _) (.tail _ (.head _))))

theorem marshalOutput_puts (s : Scope) (p : Param) (h : ∀ q ∈ outDecls pre p, (q.2, q.1) ∈ s) :
    Puts s (marshalOutputOp p) (field p.array p.ty) := by
  obtain ⟨dir, array, ty, name⟩ := p
  by_cases ht : ty = "string".toList
  · subst ht
    cases array
    · exact .string (.deref (h (⟨false, _, 2⟩, _) (.head _)))
    · exact .strings (.var (h (⟨false, _, 1⟩, _) (.head _)))
        (.deref (h (⟨false, _, 3⟩, _) (.tail _ (.head _))))
  · cases array <;>
      simp only [marshalOutputOp, field, ht, tString, decide_false, if_true, if_false,
        Bool.false_eq_true]
    · exact .value (.var (h (⟨false, _, _⟩, _) (.head _)))
    · exact .array (.var (h (⟨false, _, 1⟩, _) (.head _)))
        (.deref (h (⟨false, _, _⟩, _) (.tail _ (.head _))))

/-- **C125** (partial: names must be kept apart).  The function that puts the inputs into a message
declares every name once, initialises its variables with values of their types, and puts a piece of
the declared type for every parameter that is sent, in order; the server's function takes pieces of
the same types out in the same order. -/
theorem inputs_agree_partial (m : Method) (h : Apart m) :
    ∃ f ps qs ls, marshalInputFn m = some f ∧ ParamList f.params ps ∧
      ParamList (unmarshalInputFn m).params qs ∧
      ls = (m.params.filter isInput).flatMap marshalLocals ∧
      Once (body ps ls) ∧ InitOk (body ps ls) ls ∧ Once (body qs []) ∧
      List.Forall₂ (Puts (body ps ls)) (marshalInputOps m) (sent m) ∧
      List.Forall₂ (Takes (body qs [])) (unmarshalInputOps m) (sent m) := by
  obtain ⟨f, hf, -, hp⟩ := marshalInput_params m
  refine ⟨f, _, _, _, hf, hp, unmarshalInput_params m, rfl, marshalScope_once m h,
    marshalLocals_ok m, ?_, ?_, ?_⟩
  · unfold Once
    obtain ⟨h1, h2⟩ := head_names headUnsigned rfl
    rw [body_names, List.map_append, map_names_flatMap _ _ _ outDecls_suffixes, List.map_nil,
      List.append_nil]
    exact once_names _ ((named m h).filter _) paramSuffixes paramSuffixes_ok _ h1 h2
  · unfold marshalInputOps sent
    rw [← filter_input]
    exact forall₂_map _ _ _ _ fun p hp => marshalInput_puts m p hp
  · unfold unmarshalInputOps sent
    rw [← filter_input]
    exact forall₂_map _ _ _ _ fun p hp => unmarshal_takes _ p fun q hq =>
      mem_body_param (List.mem_append_right _ (List.mem_flatMap.2 ⟨p, hp, hq⟩))

theorem retDecl_names (m : Method) (c : Bool) (n : Name) (hn : n ∈ ["return_value".toList,
    "return_var".toList]) :
    ((headUnsigned ++ retDecl m c n).map (·.2)).Nodup ∧
      ∀ k ∈ (headUnsigned ++ retDecl m c n).map (·.2), ¬ pre <+: k := by
  unfold retDecl
  cases m.ret with
  | none => exact head_names headUnsigned rfl
  | some t =>
    rcases List.mem_cons.1 hn with rfl | hn
    · exact (by decide +kernel : (["base", "size", "return_value"].map String.toList).Nodup ∧
        ∀ k ∈ ["base", "size", "return_value"].map String.toList, ¬ pre <+: k)
    · rw [List.mem_singleton.1 hn]
      exact (by decide +kernel : (["base", "size", "return_var"].map String.toList).Nodup ∧
        ∀ k ∈ ["base", "size", "return_var"].map String.toList, ¬ pre <+: k)

/-- **C125** (partial: names must be kept apart).  The function that puts the result and the outputs
into a message declares every name once and puts a piece of the declared type for the result and for
every parameter that comes back, in order; the client's function takes pieces of the same types out
in the same order. -/
theorem outputs_agree_partial (m : Method) (h : Apart m) :
    ∃ f ps qs, marshalOutputFn m = some f ∧ ParamList f.params ps ∧
      ParamList (unmarshalOutputFn m).params qs ∧ Once (body ps []) ∧ Once (body qs []) ∧
      List.Forall₂ (Puts (body ps [])) (marshalOutputOps m) (answered m) ∧
      List.Forall₂ (Takes (body qs [])) (unmarshalOutputOps m) (answered m) := by
  obtain ⟨f, hf, -, hp⟩ := marshalOutput_params m
  refine ⟨f, _, _, hf, hp, unmarshalOutput_params m, ?_, ?_, ?_, ?_⟩
  · unfold Once
    obtain ⟨h1, h2⟩ := retDecl_names m true "return_var".toList (.tail _ (.head _))
    rw [body_names, List.map_append, map_names_flatMap _ _ _ inDecls_suffixes, List.map_nil,
      List.append_nil]
    exact once_names _ ((named m h).filter _) paramSuffixes paramSuffixes_ok _ h1 h2
  · unfold Once
    obtain ⟨h1, h2⟩ := retDecl_names m false "return_value".toList (.head _)
    rw [body_names, List.map_append, map_names_flatMap _ _ _ outDecls_suffixes, List.map_nil,
      List.append_nil]
    exact once_names _ ((named m h).filter _) paramSuffixes paramSuffixes_ok _ h1 h2
  · unfold marshalOutputOps answered
    rw [← filter_output]
    refine List.rel_append ?_ (forall₂_map _ _ _ _ fun p hp => marshalOutput_puts _ p fun q hq => ?_)
    · cases hr : m.ret with
      | none => exact .nil
      | some t =>
        have hm : ("return_var".toList, (⟨decide (t ≠ "string".toList), (cType t).1,
            (cType t).2 + 1⟩ : CTy)) ∈
            body (headUnsigned ++ retDecl m true "return_var".toList ++
              (m.params.filter isOutput).flatMap (inDecls pre)) [] := by
          refine mem_body_param (q := (⟨decide (t ≠ "string".toList), (cType t).1,
            (cType t).2 + 1⟩, "return_var".toList)) ?_
          refine List.mem_append_left _ (List.mem_append_right _ ?_)
          unfold retDecl
          rw [hr]
          exact .head _
        refine .cons ?_ .nil
        by_cases ht : t = "string".toList
        · subst ht
          exact .string (.deref hm)
        · rw [if_neg (show ¬ t = tString from ht)]
          simp only [field, ht, decide_false]
          exact .value (.var hm)
    · rw [← inDecls_output p (mem_output _ p hp)] at hq
      exact mem_body_param (List.mem_append_right _ (List.mem_flatMap.2 ⟨p, hp, hq⟩))
  · unfold unmarshalOutputOps answered
    rw [← filter_output]
    refine List.rel_append ?_ (forall₂_map _ _ _ _ fun p hp => unmarshal_takes _ p fun q hq => ?_)
    · cases hr : m.ret with
      | none => exact .nil
      | some t =>
        have hm : ("return_value".toList, (⟨false, (cType t).1, (cType t).2 + 1⟩ : CTy)) ∈
            body (headUnsigned ++ retDecl m false "return_value".toList ++
              (m.params.filter isOutput).flatMap (outDecls pre)) [] := by
          refine mem_body_param (q := (⟨false, (cType t).1, (cType t).2 + 1⟩,
            "return_value".toList)) ?_
          refine List.mem_append_left _ (List.mem_append_right _ ?_)
          unfold retDecl
          rw [hr]
          exact .head _
        refine .cons ?_ .nil
        by_cases ht : t = "string".toList
        · subst ht
          exact .string (.var hm)
        · rw [if_neg (show ¬ t = tString from ht)]
          simp only [field, ht, decide_false]
          exact .value (.var hm)
    · exact mem_body_param (List.mem_append_right _ (List.mem_flatMap.2 ⟨p, hp, hq⟩))

/-! ## Names that are not kept apart -/

/-- **Disagreement with C125.**  A method `p` with a result and a parameter `ret`: the server
declares `p_ret` twice. -/
theorem result_declared_twice (t : Name) (d : Dir) (a : Bool) (ty : Name) :
    ¬ Once (body [] (serverLocals ⟨"p".toList, some t, [⟨d, a, ty, "ret".toList⟩]⟩)) := by
  intro h
  change Once (serverScope _) at h
  unfold Once at h
  rw [serverScope_names] at h
  refine (List.nodup_append.1 h).2.2 (pre ++ "ret".toList ++ []) ?_ _ (.tail _ (.head _)) rfl
  refine List.mem_flatMap.2 ⟨_, .head _, List.mem_map.2 ⟨[], ?_, rfl⟩⟩
  unfold serverSuffixes
  cases a
  · exact .head _
  · exact .tail _ (.tail _ (.head _))

/-- **Disagreement with C125.**  An interface `p` whose method `n` has a parameter `n`: where the
server calls the implementation `p_n`, that name stands for a variable. -/
theorem implementation_hidden (n : Name) (r : Option Name) (d : Dir) (a : Bool) (ty : Name) (f : Fn) :
    ¬ Correct (body [] (serverLocals ⟨n, r, [⟨d, a, ty, n⟩]⟩))
      (callImpl "p".toList ⟨n, r, [⟨d, a, ty, n⟩]⟩) f := by
  rintro ⟨-, h, -⟩
  apply h
  change _ ∈ (serverScope _).map (·.1)
  rw [serverScope_names]
  refine List.mem_append_left _ (List.mem_flatMap.2 ⟨_, .head _, List.mem_map.2 ⟨[], ?_, ?_⟩⟩)
  · unfold serverSuffixes
    cases a
    · exact .head _
    · exact .tail _ (.tail _ (.head _))
  · exact List.append_nil _

/-- **Disagreement with C125.**  An interface `ret` whose method `ret` has a result: where the
server calls the implementation `ret_ret`, that name stands for the variable for the result. -/
theorem implementation_hidden_result (t : Name) (ps : List Param) (f : Fn) :
    ¬ Correct (body [] (serverLocals ⟨"ret".toList, some t, ps⟩))
      (callImpl "ret".toList ⟨"ret".toList, some t, ps⟩) f := by
  rintro ⟨-, h, -⟩
  apply h
  change _ ∈ (serverScope _).map (·.1)
  rw [serverScope_names]
  exact List.mem_append_right _ (.tail _ (.head _))

/-- **Disagreement with C125.**  A method with an array `n` and a parameter `n_sz`: the client's
function has two parameters of one name. -/
theorem parameter_declared_twice (iface n : Name) (r : Option Name) (k : Name) (d d' : Dir)
    (a : Bool) (ty ty' : Name) (m : Method)
    (hm : m = ⟨k, r, [⟨d, true, ty, n⟩, ⟨d', a, ty', n ++ "_sz".toList⟩]⟩) :
    ∃ f ps, clientFn iface m = some f ∧ ParamList f.params ps ∧ ¬ (ps.map (·.2)).Nodup := by
  refine ⟨_, _, clientFn_eq iface m, commas_params pre m.params, ?_⟩
  rw [map_names_flatMap _ _ _ inDecls_suffixes, hm]
  intro h
  simp only [List.flatMap_cons, List.flatMap_nil, List.append_nil] at h
  refine (List.nodup_append.1 h).2.2 (pre ++ n ++ "_sz".toList) (.head _)
    (pre ++ (n ++ "_sz".toList) ++ []) (List.mem_map.2 ⟨[], ?_, rfl⟩) (by simp)
  unfold paramSuffixes
  cases a
  · exact .head _
  · exact .tail _ (.head _)

/-! ## An example -/

/-- `string lookup(in string key, inout int values[], refin boolean all, out string names[])` -/
def demo : Method :=
  ⟨"lookup".toList, some "string".toList,
    [⟨.in_, false, "string".toList, "key".toList⟩, ⟨.inout, true, "int".toList, "values".toList⟩,
      ⟨.refin, false, "boolean".toList, "all".toList⟩, ⟨.out, true, "string".toList, "names".toList⟩]⟩

theorem demo_apart : Apart demo := ⟨by decide +kernel, by decide +kernel⟩

theorem demo_plain : Plain "dir".toList demo :=
  ⟨by decide +kernel, by decide +kernel, by decide +kernel, by decide +kernel⟩

/-- What is promised for the example: `char *lookup(const char *key, size_t *values_sz,
int **values, const bool *all, size_t *names_sz, char ***names)`. -/
theorem demo_promised :
    demo.params.flatMap promised =
      [(⟨true, "char".toList, 1⟩, "key".toList), (⟨false, "size_t".toList, 1⟩, "values_sz".toList),
        (⟨false, "int".toList, 2⟩, "values".toList), (⟨true, "bool".toList, 1⟩, "all".toList),
        (⟨false, "size_t".toList, 1⟩, "names_sz".toList),
        (⟨false, "char".toList, 3⟩, "names".toList)] ∧
    sent demo = [.string, .array "int".toList 0, .value "bool".toList 0] ∧
    answered demo = [.string, .array "int".toList 0, .strings] := by decide +kernel

end Verif.RpcSig
