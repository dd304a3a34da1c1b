import Verif.RpcSig.Spec

/-! The parameter lists, argument lists and scopes of the C code generated for a method. -/

namespace Verif.RpcSig

open Spec

/-! ## Texts of lists -/

section Lists

variable {α β γ : Type} {item : β → α} {c : α}

theorem Listed.append {l l' : List α} {bs bs' : List β} (h : Listed item c l bs)
    (h' : Listed item c l' bs') : Listed item c (l ++ c :: l') (bs ++ bs') := by
  induction h with
  | one b => exact .more b h'
  | more b _ ih => exact .more b ih

theorem listed_commas (f : γ → List α) (g : γ → List β) (l : List γ) (hl : l ≠ [])
    (h : ∀ x ∈ l, Listed item c (f x) (g x)) :
    Listed item c (commas c (l.map f)) (l.flatMap g) := by
  induction l with
  | nil => exact absurd rfl hl
  | cons a l ih =>
    cases l with
    | nil => simpa [commas] using h a (by simp)
    | cons b l =>
      have := Listed.append (h a (by simp)) (ih (by simp) fun x hx => h x (by simp [hx]))
      simpa [commas] using this

theorem listed_after (f : γ → List α) (g : γ → List β) (l : List γ)
    (h : ∀ x ∈ l, ∃ r, f x = c :: r ∧ Listed item c r (g x)) {a : List α} {bs : List β}
    (ha : Listed item c a bs) : Listed item c (a ++ l.flatMap f) (bs ++ l.flatMap g) := by
  induction l generalizing a bs with
  | nil => simpa using ha
  | cons x l ih =>
    obtain ⟨r, hr, hl⟩ := h x (by simp)
    have := ih (fun y hy => h y (by simp [hy])) (Listed.append ha hl)
    simpa [hr] using this

theorem forall₂_flatMap {δ : Type} (R : β → δ → Prop) (f : γ → List β) (g : γ → List δ)
    (l : List γ) (h : ∀ x ∈ l, List.Forall₂ R (f x) (g x)) :
    List.Forall₂ R (l.flatMap f) (l.flatMap g) := by
  induction l with
  | nil => exact .nil
  | cons a l ih =>
    simp only [List.flatMap_cons]
    exact List.rel_append (h a (by simp)) (ih fun x hx => h x (by simp [hx]))

end Lists

/-- What the items of a parameter list are. -/
abbrev Decls := Listed (fun p : CTy × Name => Tok.decl p.1 p.2) Tok.comma

/-! ## Types -/

theorem showType_eq (t : Name) : showType t = ⟨false, (cType t).1, (cType t).2⟩ := by
  unfold showType cType tString
  split
  · rfl
  · split
    · rfl
    · split <;> rfl

theorem cType_string : cType "string".toList = ("char".toList, 1) := by rfl

/-- The items for a parameter as an input, with a prefix. -/
def inDecls (pre : Name) (p : Param) : List (CTy × Name) :=
  (promised p).map fun q => (q.1, pre ++ q.2)

/-- The items for a parameter as an output, with a prefix. -/
def outDecls (pre : Name) (p : Param) : List (CTy × Name) :=
  if p.array then
    [(⟨false, "size_t".toList, 1⟩, sz pre p.name),
      (⟨false, (cType p.ty).1, (cType p.ty).2 + 2⟩, pre ++ p.name)]
  else [(⟨false, (cType p.ty).1, (cType p.ty).2 + 1⟩, pre ++ p.name)]

theorem decls_two (a b : CTy × Name) :
    Decls [.decl a.1 a.2, .comma, .decl b.1 b.2] [a, b] := .more a (.one b)

theorem decls_one (a : CTy × Name) : Decls [.decl a.1 a.2] [a] := .one a

theorem showInput_decls (pre : Name) (p : Param) : Decls (showInput pre p) (inDecls pre p) := by
  obtain ⟨dir, array, ty, name⟩ := p
  by_cases hs : ty = "string".toList
  · subst hs
    cases dir <;> cases array <;>
      simp only [showInput, inDecls, promised, tString, showType_eq, decide_true, if_true,
        if_false, reduceCtorEq, Bool.false_eq_true, CTy.star, CTy.const, sizeT, charT, List.map, sz,
        List.append_assoc, cType_string] <;>
      first | exact decls_two (_, _) (_, _) | exact decls_one (_, _)
  · cases dir <;> cases array <;>
      simp only [showInput, inDecls, promised, hs, tString, showType_eq, decide_false, if_true,
        if_false, reduceCtorEq, Bool.false_eq_true, CTy.star, CTy.const, sizeT, List.map, sz,
        List.append_assoc] <;>
      first | exact decls_two (_, _) (_, _) | exact decls_one (_, _)

theorem headerParam_eq (p : Param) : headerParam p = showInput [] p := rfl

theorem showOutput_decls (pre : Name) (p : Param) : Decls (showOutput pre p) (outDecls pre p) := by
  obtain ⟨dir, array, ty, name⟩ := p
  cases array <;>
    simp only [showOutput, outDecls, showType_eq, if_true, if_false, Bool.false_eq_true, CTy.star,
      sizeT] <;>
    first | exact decls_two (_, _) (_, _) | exact decls_one (_, _)

theorem inDecls_nil (p : Param) : inDecls [] p = promised p := by simp [inDecls]

/-! ## Parameter lists -/

theorem header_params (iface : Name) (m : Method) :
    ParamList (header iface m).params (m.params.flatMap promised) := by
  unfold header
  cases h : m.params with
  | nil => exact .void
  | cons a l =>
    have := listed_commas headerParam promised (a :: l) (by simp)
      fun x _ => by rw [← inDecls_nil, headerParam_eq]; exact showInput_decls [] x
    simpa using ParamList.some this

theorem showInputList_all (pre : Name) (valid : List Dir) (ps : List Param)
    (h : ∀ p ∈ ps, p.dir ∈ valid) :
    showInputList pre valid ps = some (commas .comma (ps.map (showInput pre))) := by
  unfold showInputList
  rw [if_pos (by simpa using h)]

theorem commas_params (pre : Name) (ps : List Param) :
    ParamList (commas .comma (ps.map (showInput pre))) (ps.flatMap (inDecls pre)) := by
  cases h : ps with
  | nil => exact .empty
  | cons a l => exact .some (listed_commas _ _ (a :: l) (by simp) fun x _ => showInput_decls pre x)

theorem dir_all (d : Dir) : d ∈ [Dir.in_, .refin, .out, .inout] := by cases d <;> simp

theorem clientFn_eq (iface : Name) (m : Method) :
    clientFn iface m = some ⟨m.ret.map showType, iface ++ '_' :: m.name,
      commas .comma (m.params.map (showInput pre))⟩ := by
  unfold clientFn
  rw [showInputList_all _ _ _ fun p _ => dir_all p.dir]; rfl

theorem serverExtern_eq (iface : Name) (m : Method) :
    serverExtern iface m = some ⟨m.ret.map showType, iface ++ '_' :: m.name,
      commas .comma (m.params.map (showInput [])) ++
        if m.params.length = 0 then [.void] else []⟩ := by
  unfold serverExtern
  rw [showInputList_all _ _ _ fun p _ => dir_all p.dir]; rfl

theorem result_eq (m : Method) : m.ret.map showType = promisedResult m := by
  unfold promisedResult
  cases m.ret <;> simp [showType_eq]

theorem header_result (iface : Name) (m : Method) : (header iface m).ret = promisedResult m := by
  unfold header promisedResult
  cases m.ret with
  | none => rfl
  | some t =>
    simp only [Option.map_some, Option.some.injEq]
    split
    · rename_i h
      subst h; rfl
    · exact showType_eq t

/-! ## Parameters of the helper functions -/

theorem mem_input (ps : List Param) : ∀ p ∈ ps.filter isInput, p.dir ∈ [Dir.in_, .refin, .inout] := by
  intro p hp
  have := (List.mem_filter.1 hp).2
  revert this
  unfold isInput
  cases p.dir <;> simp

theorem mem_output (ps : List Param) : ∀ p ∈ ps.filter isOutput, p.dir ∈ [Dir.out, .inout] := by
  intro p hp
  have := (List.mem_filter.1 hp).2
  revert this
  unfold isOutput
  cases p.dir <;> simp

theorem filter_input (ps : List Param) :
    ps.filter isInput = ps.filter fun p => decide (p.dir ≠ .out) := by
  congr 1; funext p; unfold isInput; cases p.dir <;> rfl

theorem filter_output (ps : List Param) :
    ps.filter isOutput = ps.filter fun p => decide (p.dir = .out ∨ p.dir = .inout) := by
  congr 1; funext p; unfold isOutput; cases p.dir <;> rfl

theorem decls_tail (a : List Tok) (xs : List (CTy × Name)) (ha : Decls a xs) (ps : List Param)
    (f : Param → List Tok) (g : Param → List (CTy × Name)) (h : ∀ p, Decls (f p) (g p)) :
    Decls (a ++ ((if ps.length > 0 then [.comma] else []) ++ commas .comma (ps.map f)))
      (xs ++ ps.flatMap g) := by
  cases ps with
  | nil => simpa [commas] using ha
  | cons x l =>
    have := Listed.append ha (listed_commas f g (x :: l) (by simp) fun p _ => h p)
    simpa using this

/-- The parameters before those of the method. -/
def headSize : List (CTy × Name) := [(voidPtr, "base".toList), (sizeT, "size".toList)]

/-- The parameters before those of the method. -/
def headUnsigned : List (CTy × Name) := [(voidPtr, "base".toList), (unsignedT, "size".toList)]

theorem headSize_decls :
    Decls [.decl voidPtr "base".toList, .comma, .decl sizeT "size".toList] headSize :=
  decls_two (_, _) (_, _)

theorem headUnsigned_decls :
    Decls [.decl voidPtr "base".toList, .comma, .decl unsignedT "size".toList] headUnsigned :=
  decls_two (_, _) (_, _)

theorem marshalInput_params (m : Method) :
    ∃ f, marshalInputFn m = some f ∧ f.name = m.name ++ "_marshal_inputs".toList ∧
      ParamList f.params (headSize ++ (m.params.filter isInput).flatMap (inDecls pre)) := by
  refine ⟨_, by unfold marshalInputFn; dsimp only; rw [showInputList_all _ _ _ (mem_input m.params)]; rfl, rfl, ?_⟩
  refine .some ?_
  simp only [List.append_assoc]
  exact decls_tail _ _ headSize_decls _ _ _ (showInput_decls pre)

theorem unmarshalInput_params (m : Method) :
    ParamList (unmarshalInputFn m).params
      (headUnsigned ++ (m.params.filter isInput).flatMap (outDecls pre)) := by
  refine .some ?_
  unfold unmarshalInputFn showOutputList
  simp only [List.append_assoc]
  exact decls_tail _ _ headUnsigned_decls _ _ _ (showOutput_decls pre)

/-- The parameter for the result. -/
def retDecl (m : Method) (c : Bool) (n : Name) : List (CTy × Name) :=
  m.ret.toList.map fun t => (⟨c && decide (t ≠ "string".toList), (cType t).1, (cType t).2 + 1⟩, n)

theorem unmarshalOutput_params (m : Method) :
    ParamList (unmarshalOutputFn m).params
      (headUnsigned ++ retDecl m false "return_value".toList ++
        (m.params.filter isOutput).flatMap (outDecls pre)) := by
  refine .some ?_
  unfold unmarshalOutputFn showOutputList retDecl
  cases hr : m.ret with
  | none =>
    simp only [List.append_assoc, Option.isSome_none, Bool.false_or,
      Option.toList_none, List.map_nil, decide_eq_true_eq, List.append_nil]
    exact decls_tail _ _ headUnsigned_decls _ _ _ (showOutput_decls pre)
  | some t =>
    have h0 : Decls ([.decl voidPtr "base".toList, .comma, .decl unsignedT "size".toList, .comma,
        .decl ((showType t).star 1) "return_value".toList])
        (headUnsigned ++ [(⟨false, (cType t).1, (cType t).2 + 1⟩, "return_value".toList)]) := by
      rw [showType_eq]
      exact .more (_, _) (.more (_, _) (.one (_, _)))
    have := decls_tail _ _ h0 (m.params.filter isOutput) _ _ (showOutput_decls pre)
    simpa using this

theorem marshalOutput_params (m : Method) :
    ∃ f, marshalOutputFn m = some f ∧ f.name = m.name ++ "_marshal_outputs".toList ∧
      ParamList f.params (headUnsigned ++ retDecl m true "return_var".toList ++
        (m.params.filter isOutput).flatMap (inDecls pre)) := by
  refine ⟨_, by unfold marshalOutputFn; dsimp only; rw [showInputList_all _ _ _ (mem_output m.params)]; rfl,
    rfl, ?_⟩
  refine .some ?_
  unfold retDecl
  cases hr : m.ret with
  | none =>
    simp only [List.append_assoc, Option.toList_none, List.map_nil, List.append_nil]
    exact decls_tail _ _ headUnsigned_decls _ _ _ (showInput_decls pre)
  | some t =>
    have h0 : Decls ([.decl voidPtr "base".toList, .comma, .decl unsignedT "size".toList, .comma,
        if t = tString then .decl (charT.star 2) "return_var".toList
          else .decl ((showType t).star 1).const "return_var".toList])
        (headUnsigned ++ [(⟨decide (t ≠ "string".toList), (cType t).1, (cType t).2 + 1⟩,
          "return_var".toList)]) := by
      by_cases ht : t = "string".toList
      · subst ht
        exact .more (_, _) (.more (_, _) (.one (_, _)))
      · simp only [tString, ht, if_false, showType_eq, ne_eq, not_false_eq_true, decide_true]
        exact .more (_, _) (.more (_, _) (.one (_, _)))
    have := decls_tail _ _ h0 (m.params.filter isOutput) _ _ (showInput_decls pre)
    simp only [List.append_assoc, List.cons_append, List.nil_append, Option.toList_some,
      List.map_cons, List.map_nil, Bool.true_and] at this ⊢
    exact this

theorem inDecls_output (p : Param) (h : p.dir ∈ [Dir.out, .inout]) :
    inDecls pre p = outDecls pre p := by
  obtain ⟨dir, array, ty, name⟩ := p
  by_cases hs : ty = "string".toList
  · subst hs
    cases dir <;> cases array <;> simp only [List.mem_cons, reduceCtorEq, List.not_mem_nil,
      or_self, or_false, false_or] at h <;>
      simp only [inDecls, outDecls, promised, sz, List.append_assoc] <;> rfl
  · cases dir <;> cases array <;> simp only [List.mem_cons, reduceCtorEq, List.not_mem_nil,
      or_self, or_false, false_or] at h <;>
      simp only [inDecls, outDecls, promised, sz, List.append_assoc] <;> rfl

/-! ## Arguments -/

/-- What the items of an argument list are. -/
abbrev Args := Listed ArgTok.arg ArgTok.comma

/-- The client's arguments for a parameter. -/
def clientArgs (p : Param) : List Expr := (inDecls pre p).map fun q => .var q.2

/-- The server's arguments for a parameter. -/
def serverArgs (p : Param) : List Expr :=
  (if p.array then [.var (szPtr p.name)] else []) ++ [.var (ptr p.name)]

theorem inDecls_names (pre : Name) (p : Param) :
    (inDecls pre p).map (·.2) = (if p.array then [sz pre p.name] else []) ++ [pre ++ p.name] := by
  obtain ⟨dir, array, ty, name⟩ := p
  by_cases hs : ty = "string".toList
  · subst hs
    cases dir <;> cases array <;>
      simp only [inDecls, promised, List.map_map, sz, List.append_assoc, decide_true] <;> rfl
  · cases dir <;> cases array <;>
      simp only [inDecls, promised, hs, List.map_map, sz, List.append_assoc, decide_false] <;> rfl

theorem clientArgs_eq (p : Param) :
    clientArgs p = (if p.array then [.var (sz pre p.name)] else []) ++ [.var (pre ++ p.name)] := by
  have := congrArg (List.map Expr.var) (inDecls_names pre p)
  rw [List.map_map] at this
  unfold clientArgs
  refine Eq.trans this ?_
  cases p.array <;> rfl

theorem clientArg_listed (p : Param) : ∃ r, ([ArgTok.comma] ++
    (if p.array then [.arg (.var (sz pre p.name)), .comma] else []) ++
      [.arg (.var (pre ++ p.name))]) = ArgTok.comma :: r ∧ Args r (clientArgs p) := by
  rw [clientArgs_eq]
  cases p.array
  · exact ⟨_, rfl, .one _⟩
  · exact ⟨_, rfl, .more _ (.one _)⟩

theorem serverArg_listed (p : Param) : ∃ r, ([ArgTok.comma] ++
    (if p.array then [.arg (.var (szPtr p.name)), .comma] else []) ++
      [.arg (.var (ptr p.name))]) = ArgTok.comma :: r ∧ Args r (serverArgs p) := by
  unfold serverArgs
  cases p.array
  · exact ⟨_, rfl, .one _⟩
  · exact ⟨_, rfl, .more _ (.one _)⟩

theorem two_args : Args [.arg .buffer, .comma, .arg .size] [.buffer, .size] := .more _ (.one _)

theorem callMarshalInput_args (m : Method) :
    ArgList (callMarshalInput m).args
      ([.buffer, .size] ++ (m.params.filter isInput).flatMap clientArgs) :=
  .some (listed_after _ _ _ (fun p _ => clientArg_listed p) two_args)

/-- The argument for the result. -/
def retArg (m : Method) (n : Name) : List Expr := m.ret.toList.map fun _ => .var n

theorem ret_args (m : Method) (n : Name) :
    Args ([.arg .buffer, .comma, .arg .size] ++
      (if m.ret.isSome then [.comma, .arg (.var n)] else [])) ([.buffer, .size] ++ retArg m n) := by
  unfold retArg
  cases m.ret
  · exact two_args
  · exact .more _ (.more _ (.one _))

theorem callUnmarshalOutput_args (m : Method) :
    ArgList (callUnmarshalOutput m).args
      ([.buffer, .size] ++ retArg m "return_ptr".toList ++
        (m.params.filter isOutput).flatMap clientArgs) :=
  .some (listed_after _ _ _ (fun p _ => clientArg_listed p) (ret_args m _))

theorem callUnmarshalInput_args (m : Method) :
    ArgList (callUnmarshalInput m).args
      ([.buffer, .size] ++ (m.params.filter isInput).flatMap serverArgs) :=
  .some (listed_after _ _ _ (fun p _ => serverArg_listed p) two_args)

theorem callMarshalOutput_args (m : Method) :
    ArgList (callMarshalOutput m).args
      ([.buffer, .size] ++ retArg m (retPtr m) ++ (m.params.filter isOutput).flatMap serverArgs) :=
  .some (listed_after _ _ _ (fun p _ => serverArg_listed p) (ret_args m _))

/-- The server's arguments for a parameter of the implementation. -/
def implArgs (p : Param) : List Expr :=
  if p.dir = .in_ then
    (if p.array then [.deref (szPtr p.name)] else []) ++ [.deref (ptr p.name)]
  else serverArgs p

theorem callImpl_args (iface : Name) (m : Method) :
    ArgList (callImpl iface m).args (m.params.flatMap implArgs) := by
  unfold callImpl
  cases h : m.params with
  | nil => exact .empty
  | cons a l =>
    refine .some (listed_commas _ _ (a :: l) (by simp) fun p _ => ?_)
    obtain ⟨dir, array, ty, name⟩ := p
    cases dir <;> cases array <;> first | exact .one _ | exact .more _ (.one _)

/-! ## Types of arguments -/

theorem assignable_refl (t : CTy) : Assignable t t := ⟨rfl, rfl, .inr (.inl rfl)⟩

/-- The scope of the client's function. -/
def clientScope (m : Method) : Scope := body (m.params.flatMap (inDecls pre)) (clientLocals m)

theorem mem_body_param {ps : List (CTy × Name)} {ls : List Local} {q : CTy × Name} (h : q ∈ ps) :
    (q.2, q.1) ∈ body ps ls :=
  List.mem_append_left _ (List.mem_map.2 ⟨q, h, rfl⟩)

theorem mem_body_local {ps : List (CTy × Name)} {ls : List Local} {v : Local} (h : v ∈ ls) :
    (v.name, v.ty) ∈ body ps ls :=
  List.mem_append_right _ (List.mem_map.2 ⟨v, h, rfl⟩)

/-- An argument fits a parameter. -/
abbrev Fits (s : Scope) (e : Expr) (p : CTy × Name) : Prop := ∃ t, HasType s e t ∧ Assignable t p.1

theorem fits_same (s : Scope) (l : List (CTy × Name)) (h : ∀ q ∈ l, (q.2, q.1) ∈ s) :
    List.Forall₂ (Fits s) (l.map fun q => .var q.2) l := by
  induction l with
  | nil => exact .nil
  | cons a l ih =>
    exact .cons ⟨a.1, .var (h a (by simp)), assignable_refl _⟩ (ih fun q hq => h q (by simp [hq]))

theorem clientArgs_fit (m : Method) (p : Param) (hp : p ∈ m.params) :
    List.Forall₂ (Fits (clientScope m)) (clientArgs p) (inDecls pre p) :=
  fits_same _ _ fun _ hq => mem_body_param (List.mem_flatMap.2 ⟨p, hp, hq⟩)

theorem head_fits_size (s : Scope) : List.Forall₂ (Fits s) [.buffer, .size] headSize :=
  .cons ⟨_, .buffer, assignable_refl _⟩ (.cons ⟨_, .size, assignable_refl _⟩ .nil)

theorem head_fits_unsigned (s : Scope) : List.Forall₂ (Fits s) [.buffer, .size] headUnsigned :=
  .cons ⟨_, .buffer, assignable_refl _⟩ (.cons ⟨_, .unsigned, assignable_refl _⟩ .nil)

theorem ret_fits (s : Scope) (m : Method) (c : Bool) (n k : Name)
    (h : ∀ t, m.ret = some t → (n, ⟨false, (cType t).1, (cType t).2 + 1⟩) ∈ s) :
    List.Forall₂ (Fits s) (retArg m n) (retDecl m c k) := by
  unfold retArg retDecl
  cases hr : m.ret with
  | none => exact .nil
  | some t =>
    refine .cons ⟨_, .var (h t hr), rfl, rfl, ?_⟩ .nil
    by_cases ht : t = "string".toList
    · exact .inr (.inl (by simp [ht]))
    · by_cases hk : (cType t).2 = 0
      · exact .inr (.inr ⟨by simp [hk], rfl⟩)
      · exfalso
        apply hk
        unfold cType
        rw [if_neg ht]
        split
        · rfl
        · split <;> rfl

theorem client_marshals (m : Method) :
    ∃ f es ps, marshalInputFn m = some f ∧ f.name = m.name ++ "_marshal_inputs".toList ∧
      ArgList (callMarshalInput m).args es ∧ ParamList f.params ps ∧
      List.Forall₂ (Fits (clientScope m)) es ps := by
  obtain ⟨f, hf, hn, hp⟩ := marshalInput_params m
  refine ⟨f, _, _, hf, hn, callMarshalInput_args m, hp, ?_⟩
  exact List.rel_append (head_fits_size _)
    (forall₂_flatMap _ _ _ _ fun p hp => clientArgs_fit m p (List.mem_filter.1 hp).1)

theorem client_unmarshals (m : Method) :
    ∃ es ps, ArgList (callUnmarshalOutput m).args es ∧ ParamList (unmarshalOutputFn m).params ps ∧
      List.Forall₂ (Fits (clientScope m)) es ps := by
  refine ⟨_, _, callUnmarshalOutput_args m, unmarshalOutput_params m, ?_⟩
  refine List.rel_append (List.rel_append (head_fits_unsigned _) (ret_fits _ m _ _ _ ?_))
    (forall₂_flatMap _ _ _ _ fun p hp => ?_)
  · intro t ht
    refine mem_body_local (v := ⟨⟨false, (cType t).1, (cType t).2 + 1⟩, "return_ptr".toList,
      some (.addr "return_val".toList)⟩) ?_
    unfold clientLocals
    rw [ht]
    dsimp only
    rw [showType_eq]
    exact List.mem_append_left _ (List.mem_append_right _ (.tail _ (.head _)))
  · rw [← inDecls_output p (mem_output _ p hp)]
    exact clientArgs_fit m p (List.mem_filter.1 hp).1

/-! ## The server's variables -/

/-- The scope of the block that serves a method. -/
def serverScope (m : Method) : Scope := body [] (serverLocals m)

theorem serverParam_eq (p : Param) : serverParam p =
    if p.array then
      [⟨⟨false, "size_t".toList, 0⟩, sz pre p.name, none⟩,
        ⟨⟨false, "size_t".toList, 1⟩, szPtr p.name, some (.addr (sz pre p.name))⟩,
        ⟨⟨false, (cType p.ty).1, (cType p.ty).2 + 1⟩, pre ++ p.name, none⟩,
        ⟨⟨false, (cType p.ty).1, (cType p.ty).2 + 2⟩, ptr p.name, some (.addr (pre ++ p.name))⟩]
    else
      [⟨⟨false, (cType p.ty).1, (cType p.ty).2⟩, pre ++ p.name, none⟩,
        ⟨⟨false, (cType p.ty).1, (cType p.ty).2 + 1⟩, ptr p.name, some (.addr (pre ++ p.name))⟩] := by
  obtain ⟨dir, array, ty, name⟩ := p
  by_cases hs : ty = "string".toList
  · subst hs
    cases array <;> rfl
  · cases array <;> simp only [serverParam, tString, hs, if_false, showType_eq, if_true,
      Bool.false_eq_true] <;> rfl

theorem serverParam_ptr (p : Param) : (ptr p.name, (⟨false, (cType p.ty).1,
    (cType p.ty).2 + (if p.array then 2 else 1)⟩ : CTy)) ∈
      (serverParam p).map fun v => (v.name, v.ty) := by
  rw [serverParam_eq]
  cases p.array
  · exact .tail _ (.head _)
  · exact .tail _ (.tail _ (.tail _ (.head _)))

theorem serverParam_szPtr (p : Param) (h : p.array = true) :
    (szPtr p.name, (⟨false, "size_t".toList, 1⟩ : CTy)) ∈
      (serverParam p).map fun v => (v.name, v.ty) := by
  rw [serverParam_eq, h]
  exact .tail _ (.head _)

theorem serverScope_param (m : Method) (p : Param) (hp : p ∈ m.params) (q : Name × CTy)
    (h : q ∈ (serverParam p).map fun v => (v.name, v.ty)) : q ∈ serverScope m := by
  obtain ⟨v, hv, rfl⟩ := List.mem_map.1 h
  refine mem_body_local (v := v) ?_
  unfold serverLocals
  exact List.mem_append_left _ (List.mem_append_left _ (List.mem_flatMap.2 ⟨p, hp, hv⟩))

theorem serverScope_ptr (m : Method) (p : Param) (hp : p ∈ m.params) :
    (ptr p.name, (⟨false, (cType p.ty).1, (cType p.ty).2 + (if p.array then 2 else 1)⟩ : CTy)) ∈
      serverScope m := serverScope_param m p hp _ (serverParam_ptr p)

theorem serverScope_szPtr (m : Method) (p : Param) (hp : p ∈ m.params) (h : p.array = true) :
    (szPtr p.name, (⟨false, "size_t".toList, 1⟩ : CTy)) ∈ serverScope m :=
  serverScope_param m p hp _ (serverParam_szPtr p h)

theorem serverScope_ret (m : Method) (t : Name) (h : m.ret = some t) :
    (retPtr m, (⟨false, (cType t).1, (cType t).2 + 1⟩ : CTy)) ∈ serverScope m := by
  refine mem_body_local (v := ⟨⟨false, (cType t).1, (cType t).2 + 1⟩, retPtr m,
    some (.addr (retName m))⟩) ?_
  unfold serverLocals
  refine List.mem_append_right _ ?_
  rw [h]
  dsimp only
  by_cases ht : t = "string".toList
  · subst ht
    exact .tail _ (.head _)
  · rw [if_neg (show ¬ t = tString from ht), showType_eq]
    exact .tail _ (.head _)

theorem serverArgs_fit (m : Method) (p : Param) (hp : p ∈ m.params) :
    List.Forall₂ (Fits (serverScope m)) (serverArgs p) (outDecls pre p) := by
  have h1 := serverScope_ptr m p hp
  unfold serverArgs outDecls
  cases ha : p.array with
  | false =>
    rw [ha] at h1
    exact .cons ⟨_, .var h1, assignable_refl _⟩ .nil
  | true =>
    rw [ha] at h1
    exact .cons ⟨_, .var (serverScope_szPtr m p hp ha), assignable_refl _⟩
      (.cons ⟨_, .var h1, assignable_refl _⟩ .nil)

theorem cType_not_string {t : Name} (h : t ≠ "string".toList) : (cType t).2 = 0 := by
  unfold cType
  rw [if_neg h]
  split
  · rfl
  · split <;> rfl

theorem implArgs_fit (m : Method) (p : Param) (hp : p ∈ m.params) :
    List.Forall₂ (Fits (serverScope m)) (implArgs p) (promised p) := by
  have h1 := serverScope_ptr m p hp
  have h2 := serverScope_szPtr m p hp
  obtain ⟨dir, array, ty, name⟩ := p
  simp only at h1 h2
  by_cases hs : ty = "string".toList
  · subst hs
    rw [cType_string] at h1
    cases dir <;> cases array
    · exact .cons ⟨_, .deref h1, rfl, rfl, .inr (.inr ⟨rfl, rfl⟩)⟩ .nil
    · exact .cons ⟨_, .deref (h2 rfl), rfl, rfl, .inl rfl⟩
        (.cons ⟨_, .deref h1, rfl, rfl, .inr (.inl rfl)⟩ .nil)
    · exact .cons ⟨_, .var h1, assignable_refl _⟩ .nil
    · exact .cons ⟨_, .var (h2 rfl), rfl, rfl, .inr (.inr ⟨rfl, rfl⟩)⟩
        (.cons ⟨_, .var h1, assignable_refl _⟩ .nil)
    · exact .cons ⟨_, .var h1, assignable_refl _⟩ .nil
    · exact .cons ⟨_, .var (h2 rfl), assignable_refl _⟩ (.cons ⟨_, .var h1, assignable_refl _⟩ .nil)
    · exact .cons ⟨_, .var h1, assignable_refl _⟩ .nil
    · exact .cons ⟨_, .var (h2 rfl), assignable_refl _⟩ (.cons ⟨_, .var h1, assignable_refl _⟩ .nil)
  · have hk := cType_not_string hs
    cases dir <;> cases array <;>
      simp only [implArgs, serverArgs, promised, hs, decide_false, hk, if_true, if_false,
        Bool.false_eq_true, reduceCtorEq, List.nil_append, List.cons_append] at h1 ⊢
    · exact .cons ⟨_, .deref h1, assignable_refl _⟩ .nil
    · exact .cons ⟨_, .deref (h2 rfl), rfl, rfl, .inl rfl⟩
        (.cons ⟨_, .deref h1, rfl, rfl, .inr (.inr ⟨rfl, rfl⟩)⟩ .nil)
    · exact .cons ⟨_, .var h1, rfl, rfl, .inr (.inr ⟨rfl, rfl⟩)⟩ .nil
    · exact .cons ⟨_, .var (h2 rfl), rfl, rfl, .inr (.inr ⟨rfl, rfl⟩)⟩
        (.cons ⟨_, .var h1, assignable_refl _⟩ .nil)
    · exact .cons ⟨_, .var h1, assignable_refl _⟩ .nil
    · exact .cons ⟨_, .var (h2 rfl), assignable_refl _⟩ (.cons ⟨_, .var h1, assignable_refl _⟩ .nil)
    · exact .cons ⟨_, .var h1, assignable_refl _⟩ .nil
    · exact .cons ⟨_, .var (h2 rfl), assignable_refl _⟩ (.cons ⟨_, .var h1, assignable_refl _⟩ .nil)

end Verif.RpcSig
