import Verif.AttrText.Spec

/-!
# Reading what was written
-/

namespace Verif.AttrText

/-! ## Tokens -/

/-- A text that begins with a character that is not white space and no brace. -/
def Solid (t : Text) : Prop := ∃ c r, t = c :: r ∧ c ≠ ' ' ∧ c ≠ '\n' ∧ c ≠ '\\' ∧ c ≠ '}' ∧ oneLine t = true

theorem oneLine_plain (s : Text) (h : ∀ c ∈ s, c ≠ '\n') : oneLine s = true := by
  induction s using oneLine.induct with
  | case1 s ih => exact absurd rfl (h '\n' (by simp))
  | case2 s => exact absurd rfl (h '\n' (by simp))
  | case3 c s h1 h2 ih =>
    rw [oneLine]
    · exact ih (fun d hd => h d (List.mem_cons_of_mem _ hd))
    all_goals assumption
  | case4 => rfl

theorem oneLine_append (a b : Text) (ha : oneLine a = true) (hb : oneLine b = true) : oneLine (a ++ b) = true := by
  induction a using oneLine.induct with
  | case1 s ih =>
    rw [oneLine] at ha
    rw [List.cons_append, List.cons_append, oneLine]
    exact ih ha
  | case2 s => rw [oneLine] at ha; cases ha
  | case3 c s h1 h2 ih =>
    rw [oneLine] at ha
    · rw [List.cons_append, oneLine]
      · exact ih ha
      · intro r hc hr
        subst hc
        cases s with
        | nil =>
          simp only [List.nil_append] at hr
          subst hr
          rw [oneLine] at hb
          · cases hb
        | cons d s =>
          simp only [List.cons_append, List.cons.injEq] at hr
          obtain ⟨rfl, _⟩ := hr
          exact h1 s rfl rfl
      · exact h2
    all_goals assumption
  | case4 => exact hb

theorem oneLine_join (ts : List Text) (h : ∀ t ∈ ts, oneLine t = true) :
    oneLine (join [',', '\\', '\n'] ts) = true := by
  induction ts with
  | nil => rfl
  | cons t r ih =>
    cases r with
    | nil => exact h t List.mem_cons_self
    | cons t2 r =>
      rw [join]
      exact oneLine_append _ _ (oneLine_append _ _ (h t List.mem_cons_self) (by decide))
        (ih (fun x hx => h x (List.mem_cons_of_mem _ hx)))

theorem white_solid (c : Char) (r : Text) (h1 : c ≠ ' ') (h2 : c ≠ '\n') (h3 : c ≠ '\\') : white (c :: r) = c :: r := by
  unfold white
  split
  · rename_i h; cases h; exact absurd rfl h1
  · rename_i h; cases h; exact absurd rfl h2
  · rename_i h; cases h; exact absurd rfl h3
  · rfl

theorem token_congr (c : Char) {s s' : Text} (h : white s = white s') : token c s = token c s' := by
  unfold token; rw [h]

theorem token_same (c : Char) (s : Text) (h1 : c ≠ ' ') (h2 : c ≠ '\n') (h3 : c ≠ '\\') : token c (c :: s) = some s := by
  unfold token; rw [white_solid c s h1 h2 h3]; simp

theorem token_other (c : Char) (t s : Text) (h : Solid t) : c = '}' → token c (t ++ s) = none := by
  intro hc
  obtain ⟨d, r, rfl, h1, h2, h3, h4, _⟩ := h
  unfold token
  rw [List.cons_append, white_solid d _ h1 h2 h3]
  simp [hc, h4]

theorem white_splice (s : Text) : white ('\\' :: '\n' :: s) = white s := by rw [white]
theorem white_space (s : Text) : white (' ' :: s) = white s := by rw [white]

theorem white_idem (s : Text) : white (white s) = white s := by
  induction s using white.induct with
  | case1 s ih => rw [white_space]; exact ih
  | case2 s ih => rw [show white ('\n' :: s) = white s by rw [white]]; exact ih
  | case3 s ih => rw [white_splice]; exact ih
  | case4 s h1 h2 h3 =>
    have : white s = s := by
      unfold white
      split
      · exact absurd rfl (h1 _)
      · exact absurd rfl (h2 _)
      · exact absurd rfl (h3 _)
      · rfl
    rw [this, this]

/-! ## Numbers -/

theorem digit_toNat (d : Nat) (h : d < 10) : (digit d).toNat = 48 + d := by
  have : ∀ d : Fin 10, (digit d).toNat = 48 + d := by decide
  exact this ⟨d, h⟩

theorem digit_isDigit (d : Nat) (h : d < 10) : (digit d).isDigit = true := by
  have : ∀ d : Fin 10, (digit d).isDigit = true := by decide
  exact this ⟨d, h⟩

theorem decimal_digits (n : Nat) : ∀ c ∈ decimal n, c.isDigit = true := by
  induction n using Nat.strongRecOn with
  | _ n ih =>
    rw [decimal]
    split
    · intro c hc
      rw [List.mem_singleton.1 hc]
      exact digit_isDigit n (by omega)
    · intro c hc
      rcases List.mem_append.1 hc with hc | hc
      · exact ih (n / 10) (by omega) c hc
      · rw [List.mem_singleton.1 hc]
        exact digit_isDigit _ (by omega)

theorem number_append (a b : Text) : number (a ++ b) = b.foldl (fun n c => 10 * n + (c.toNat - 48)) (number a) := by
  unfold number; rw [List.foldl_append]

theorem number_decimal (n : Nat) : number (decimal n) = n := by
  induction n using Nat.strongRecOn with
  | _ n ih =>
    rw [decimal]
    split
    · rename_i h
      simp only [number, List.foldl_cons, List.foldl_nil]
      rw [digit_toNat n h]; omega
    · rw [number_append, ih (n / 10) (by omega)]
      simp only [List.foldl_cons, List.foldl_nil]
      rw [digit_toNat _ (by omega)]; omega

theorem decimal_ne (n : Nat) : decimal n ≠ [] := by
  rw [decimal]; split <;> simp

theorem decimal_head (n : Nat) (h : (decimal n).head? = some '0') : n = 0 := by
  induction n using Nat.strongRecOn with
  | _ n ih =>
    rw [decimal] at h
    split at h
    · rename_i hn
      have : ∀ d : Fin 10, (digit d) = '0' → d.val = 0 := by decide
      exact this ⟨n, hn⟩ (by simpa using h)
    · rename_i hn
      have hne := decimal_ne (n / 10)
      rw [List.head?_append_of_ne_nil _ hne] at h
      have := ih (n / 10) (by omega) h
      omega

theorem takeWhile_all {p : Char → Bool} (a b : Text) (h : ∀ c ∈ a, p c = true) (hb : ∀ c, b.head? = some c → p c = false) :
    (a ++ b).takeWhile p = a ∧ (a ++ b).dropWhile p = b := by
  induction a with
  | nil =>
    cases b with
    | nil => simp
    | cons c r => simp [hb c rfl]
  | cons c r ih =>
    have := ih (fun d hd => h d (List.mem_cons_of_mem _ hd))
    simp [h c List.mem_cons_self, this]

/-- What may come after a number. -/
def Stop (rest : Text) : Prop := ∀ c, rest.head? = some c → floatChar c = false

theorem stop_digit {rest : Text} (h : Stop rest) : ∀ c, rest.head? = some c → c.isDigit = false := by
  intro c hc
  have := h c hc
  unfold floatChar at this
  cases hd : c.isDigit with
  | false => rfl
  | true => simp [hd] at this

theorem readNat_decimal (n : Nat) (rest : Text) (h : Stop rest) : readNat (decimal n ++ rest) = some (n, rest) := by
  have := takeWhile_all (decimal n) rest (decimal_digits n) (stop_digit h)
  unfold readNat
  rw [this.1]
  have hz : ¬ (decimal n = [] ∨ (decimal n).head? = some '0' ∧ (decimal n).length ≠ 1) := by
    rintro (h | ⟨h, h2⟩)
    · exact decimal_ne n h
    · rw [decimal_head n h] at h2
      exact h2 (by rw [decimal]; simp)
  simp only [if_neg hz]
  rw [number_decimal]; simp

theorem digit_solid {c : Char} (h : c.isDigit = true) : c ≠ ' ' ∧ c ≠ '\n' ∧ c ≠ '\\' ∧ c ≠ '}' ∧ c ≠ '-' := by
  refine ⟨?_, ?_, ?_, ?_, ?_⟩ <;> (rintro rfl; revert h; decide)

theorem floatChar_solid {c : Char} (h : floatChar c = true) : c ≠ ' ' ∧ c ≠ '\n' ∧ c ≠ '\\' ∧ c ≠ '}' := by
  refine ⟨?_, ?_, ?_, ?_⟩ <;> (rintro rfl; revert h; decide)

theorem decimal_cons (n : Nat) : ∃ c r, decimal n = c :: r ∧ c.isDigit = true := by
  cases hd : decimal n with
  | nil => exact absurd hd (decimal_ne n)
  | cons c r => exact ⟨c, r, rfl, decimal_digits n c (by rw [hd]; exact List.mem_cons_self)⟩

theorem readInt_show (n : Int) (rest : Text) (h : Stop rest) :
    readInt ((if n < 0 then '-' :: decimal n.natAbs else decimal n.natAbs) ++ rest) = some (n, rest) := by
  unfold readInt
  split
  · rename_i s heq
    split at heq
    · rw [List.cons_append, white_solid '-' _ (by decide) (by decide) (by decide)] at heq
      cases heq
      rw [readNat_decimal _ _ h]
      simp; omega
    · obtain ⟨c, r, hc, hd⟩ := decimal_cons n.natAbs
      have hs := digit_solid hd
      rw [hc, List.cons_append, white_solid c _ hs.1 hs.2.1 hs.2.2.1] at heq
      cases heq
      exact absurd rfl hs.2.2.2.2
  · rename_i s hne
    split at hne
    · rw [List.cons_append, white_solid '-' _ (by decide) (by decide) (by decide)] at hne
      exact absurd rfl (hne _)
    · rename_i hn
      obtain ⟨c, r, hc, hd⟩ := decimal_cons n.natAbs
      have hs := digit_solid hd
      have hw : white (decimal n.natAbs ++ rest) = decimal n.natAbs ++ rest := by
        rw [hc, List.cons_append, white_solid c _ hs.1 hs.2.1 hs.2.2.1]
      rw [if_neg hn, hw, readNat_decimal _ _ h]
      simp; omega

theorem readInt_congr {s s' : Text} (h : white s = white s') : readInt s = readInt s' := by
  unfold readInt; rw [h]

/-! ## Strings -/

theorem readString_plain (s rest : Text) (h : Plain s) : readString (s ++ '"' :: rest) = some (s, rest) := by
  induction s with
  | nil => rw [List.nil_append, readString]
  | cons c r ih =>
    have hc := h c List.mem_cons_self
    have hr := ih (fun d hd => h d (List.mem_cons_of_mem _ hd))
    rw [List.cons_append, readString]
    · rw [hr]
    · exact hc.1
    · exact hc.2.2
    · intro s hs; exact absurd hs hc.2.1
    · intro a b hs; exact absurd hs hc.2.1

/-! ## Scalars -/

theorem readScalar_congr (t : Text) {s s' : Text} (h : white s = white s') : readScalar t s = readScalar t s' := by
  unfold readScalar
  rw [readInt_congr h, token_congr '"' h, h]

theorem scalar (t : Text) (v : Val) (c : CVal) (hv : valueOf (.base t) v = some c) (hf : Fits (.base t) v) :
    ∃ x, showOne (.base t) v = .ok x ∧ Solid x ∧ ∀ rest, Stop rest → readOne (.base t) (x ++ rest) = some (c, rest) := by
  rw [valueOf.eq_def] at hv
  rw [Fits.eq_def] at hf
  cases v with
  | int n =>
    simp only at hv hf
    split at hv
    · rename_i hl
      cases hv
      obtain ⟨⟨bits, sign⟩, hp⟩ := Option.isSome_iff_exists.1 hl
      refine ⟨if n < 0 then '-' :: decimal n.natAbs else decimal n.natAbs, by rw [showOne.eq_def]; rfl, ?_, ?_⟩
      · split
        · refine ⟨'-', _, rfl, by decide, by decide, by decide, by decide, oneLine_plain _ ?_⟩
          intro d hd
          rcases List.mem_cons.1 hd with rfl | hd
          · decide
          · exact (digit_solid (decimal_digits _ d hd)).2.1
        · obtain ⟨d, r, hd, hdd⟩ := decimal_cons n.natAbs
          have := digit_solid hdd
          exact ⟨d, r, hd, this.1, this.2.1, this.2.2.1, this.2.2.2.1,
            oneLine_plain _ (fun x hx => (digit_solid (decimal_digits _ x hx)).2.1)⟩
      · intro rest hr
        rw [readOne.eq_def]
        simp only [readScalar, hp]
        rw [readInt_show n rest hr]
        simp only [Option.map_some, hf bits sign hp]
    · cases hv
  | float x =>
    simp only at hv hf
    split at hv
    · rename_i hl
      cases hv
      obtain ⟨hn, hx⟩ := hf
      cases x with
      | nil => exact absurd rfl hn
      | cons d r =>
        have hs := floatChar_solid (hx d List.mem_cons_self)
        refine ⟨_, by rw [showOne.eq_def]; simp only [showNumber], ⟨d, r, rfl, hs.1, hs.2.1, hs.2.2.1, hs.2.2.2,
          oneLine_plain _ (fun x h => (floatChar_solid (hx x h)).2.1)⟩, ?_⟩
        intro rest hr
        rw [readOne.eq_def]
        have ht := takeWhile_all (d :: r) rest hx hr
        have hw : white (d :: r ++ rest) = d :: r ++ rest := by
          rw [List.cons_append, white_solid d _ hs.1 hs.2.1 hs.2.2.1]
        have hnone := Option.isNone_iff_eq_none.1 hl.1
        simp only [readScalar, hnone, if_pos hl.2]
        rw [hw, ht.1, ht.2]
        simp
    · cases hv
  | str s =>
    simp only at hv hf
    split at hv
    · rename_i hl
      cases hv
      refine ⟨'"' :: s ++ ['"'], by rw [showOne.eq_def], ⟨'"', _, rfl, by decide, by decide, by decide, by decide,
        oneLine_append _ _ (oneLine_plain _ ?_) (by decide)⟩, ?_⟩
      · intro x hx
        rcases List.mem_cons.1 hx with rfl | hx
        · decide
        · exact (hf x hx).2.2
      intro rest _
      rw [readOne.eq_def]
      subst hl
      have h1 : integers.lookup "string".toList = none := by decide
      have h2 : ¬ "string".toList ∈ floats := by decide
      simp only [readScalar, h1, if_neg h2, if_true]
      rw [show ('"' :: s ++ ['"'] ++ rest : Text) = '"' :: (s ++ '"' :: rest) by simp]
      rw [token_same '"' _ (by decide) (by decide) (by decide)]
      simp only
      rw [readString_plain s rest hf]
      rfl
    · cases hv
  | list l => simp at hv
  | dict d => simp at hv

theorem readOne_congr (ty : Ty) {s s' : Text} (h : white s = white s') : readOne ty s = readOne ty s' := by
  cases ty with
  | base t => rw [readOne.eq_def, readOne.eq_def]; exact readScalar_congr t h
  | struct n fs =>
    rw [readOne.eq_def, readOne.eq_def]
    simp only [token_congr '{' h]

theorem readList_congr (f : Text → Option (CVal × Text)) {s s' : Text} (h : white s = white s') :
    readList f s = readList f s' := by
  unfold readList; rw [token_congr '{' h]

theorem readItems_congr (f : Text → Option (CVal × Text)) (hf : ∀ s s', white s = white s' → f s = f s') (n : Nat)
    {s s' : Text} (h : white s = white s') : readItems f n s = readItems f n s' := by
  cases n with
  | zero => rfl
  | succ n => unfold readItems; rw [token_congr '}' h, hf s s' h]

/-! ## Arrays -/

/-- The text is read as this. -/
def Reads (f : Text → Option (CVal × Text)) (t : Text) (c : CVal) : Prop :=
  Solid t ∧ ∀ rest, Stop rest → f (t ++ rest) = some (c, rest)

theorem stop_comma (s : Text) : Stop (',' :: s) := by
  intro c hc; cases hc; decide
theorem stop_brace (s : Text) : Stop ('}' :: s) := by
  intro c hc; cases hc; decide

theorem items (f : Text → Option (CVal × Text)) (hf : ∀ s s', white s = white s' → f s = f s') :
    ∀ (ts : List Text) (cs : List CVal), List.Forall₂ (Reads f) ts cs → ∀ n rest, ts.length ≤ n → 1 ≤ n →
      readItems f n (join [',', '\\', '\n'] ts ++ '}' :: rest) = some (cs, rest) := by
  intro ts cs h
  induction h with
  | nil =>
    intro n rest _ hn
    obtain ⟨m, rfl⟩ : ∃ m, n = m + 1 := ⟨n - 1, by omega⟩
    rw [readItems]
    simp only [join, List.nil_append]
    rw [token_same '}' _ (by decide) (by decide) (by decide)]
  | @cons t c ts cs h1 h2 ih =>
    intro n rest hl hn
    obtain ⟨m, rfl⟩ : ∃ m, n = m + 1 := ⟨n - 1, by omega⟩
    cases ts with
    | nil =>
      cases h2
      rw [readItems]
      simp only [join]
      rw [token_other '}' _ _ h1.1 rfl, h1.2 _ (stop_brace rest)]
      simp only
      rw [token_same '}' _ (by decide) (by decide) (by decide)]
    | cons t2 ts =>
      simp only [List.length_cons] at hl
      have := ih m rest (by simpa using hl) (by omega)
      rw [readItems]
      rw [show (join [',', '\\', '\n'] (t :: t2 :: ts) ++ '}' :: rest)
        = t ++ ',' :: '\\' :: '\n' :: (join [',', '\\', '\n'] (t2 :: ts) ++ '}' :: rest) by simp [join]]
      rw [token_other '}' _ _ h1.1 rfl, h1.2 _ (stop_comma _)]
      simp only
      have h3 : ∀ s : Text, token '}' (',' :: s) = none := by
        intro s
        unfold token
        rw [white_solid ',' _ (by decide) (by decide) (by decide)]
        simp
      rw [h3, token_same ',' _ (by decide) (by decide) (by decide)]
      simp only
      rw [readItems_congr f hf m (white_splice _), this]
      rfl

theorem join_length (ts : List Text) : ts.length ≤ (join [',', '\\', '\n'] ts).length + 1 := by
  induction ts with
  | nil => simp
  | cons t r ih =>
    cases r with
    | nil => simp
    | cons t2 r =>
      simp only [join, List.length_append, List.length_cons, List.length_nil] at ih ⊢
      omega

theorem braces_reads (f : Text → Option (CVal × Text)) (hf : ∀ s s', white s = white s' → f s = f s') (ts : List Text)
    (cs : List CVal) (h : List.Forall₂ (Reads f) ts cs) :
    ∃ x, braces (.ok ts) = .ok x ∧ Reads (readList f) x (.list cs) := by
  refine ⟨_, rfl, ⟨'{', _, rfl, by decide, by decide, by decide, by decide,
    oneLine_append _ _ (oneLine_append ['{', '\\', '\n'] _ (by decide) (oneLine_join _ ?_)) (by decide)⟩, ?_⟩
  · intro t ht
    obtain ⟨c, hc⟩ : ∃ c, Reads f t c := by
      clear hf
      induction h with
      | nil => cases ht
      | @cons a c ts cs h1 h2 ih =>
        rcases List.mem_cons.1 ht with rfl | ht
        · exact ⟨c, h1⟩
        · exact ih ht
    obtain ⟨_, _, _, _, _, _, _, h1⟩ := hc.1
    exact h1
  intro rest _
  have h1 : (['{', '\\', '\n'] ++ join [',', '\\', '\n'] ts ++ ['}'] ++ rest : Text)
      = '{' :: '\\' :: '\n' :: (join [',', '\\', '\n'] ts ++ '}' :: rest) := by simp
  rw [h1]
  unfold readList
  rw [token_same '{' _ (by decide) (by decide) (by decide)]
  simp only
  rw [readItems_congr f hf _ (white_splice _), items f hf ts cs h _ rest]
  · rfl
  · have := join_length ts
    simp only [List.length_append, List.length_cons]; omega
  · omega

/-- The elements of a list. -/
theorem mapE_reads (ty : Ty) (h1 : ∀ v c, valueOf ty v = some c → Fits ty v →
      ∃ x, showOne ty v = .ok x ∧ Reads (readOne ty) x c) :
    ∀ (l : List Val) (cs : List CVal), all (valueOf ty) l = some cs → (∀ v ∈ l, Fits ty v) →
      ∃ ts, mapE (showOne ty) l = .ok ts ∧ List.Forall₂ (Reads (readOne ty)) ts cs := by
  intro l
  induction l with
  | nil =>
    intro cs h _
    cases h
    exact ⟨[], rfl, .nil⟩
  | cons v r ih =>
    intro cs h hf
    rw [all] at h
    split at h
    · rename_i b bs hb hbs
      cases h
      obtain ⟨x, hx, hr⟩ := h1 v b hb (hf v List.mem_cons_self)
      obtain ⟨ts, hts, hrs⟩ := ih bs hbs (fun w hw => hf w (List.mem_cons_of_mem _ hw))
      exact ⟨x :: ts, by rw [mapE, hx]; simp only [hts], .cons hr hrs⟩
    · cases h

theorem showFields_cons (n : Text) (ty : Ty) (a : Bool) (rest : Fields) (d : List (Text × Val)) (v : Val)
    (h : dget d n = some v) : showFields (.cons n ty a rest) d =
      match showAttr ty v with
      | .error e => .error e
      | .ok t => match showFields rest d with
        | .error e => .error e
        | .ok r => .ok (('.' :: n) ++ [' ', '=', ' '] ++ t ++ [',', '\\', '\n'] ++ r) := by
  rw [showFields.eq_def]
  simp only [h]
  cases v <;> rfl

mutual
theorem one (ty : Ty) (v : Val) (c : CVal) (hv : valueOf ty v = some c) (hf : Fits ty v) :
    ∃ x, showOne ty v = .ok x ∧ Reads (readOne ty) x c := by
  match ty with
  | .base t => exact scalar t v c hv hf
  | .struct n fs =>
    rw [valueOf.eq_def] at hv
    rw [Fits.eq_def] at hf
    cases v with
    | dict d =>
      simp only [Option.map_eq_some_iff] at hv hf
      obtain ⟨r, hr, rfl⟩ := hv
      obtain ⟨b, hb, hread, hone⟩ := fieldsRead fs d r hr hf
      refine ⟨['{', '\\', '\n'] ++ b ++ ['}'], by rw [showOne.eq_def]; simp only [hb],
        ⟨'{', _, rfl, by decide, by decide, by decide, by decide,
          oneLine_append _ _ (oneLine_append ['{', '\\', '\n'] _ (by decide) hone) (by decide)⟩, ?_⟩
      intro rest _
      rw [readOne.eq_def]
      rw [show (['{', '\\', '\n'] ++ b ++ ['}'] ++ rest : Text) = '{' :: '\\' :: '\n' :: (b ++ '}' :: rest) by simp]
      simp only
      rw [token_same '{' _ (by decide) (by decide) (by decide)]
      simp only
      obtain ⟨rest', hw, hrd⟩ := hread ('\\' :: '\n' :: (b ++ '}' :: rest)) ('}' :: rest) (white_splice _)
      rw [hrd]
      simp only
      rw [token_congr '}' hw, token_same '}' _ (by decide) (by decide) (by decide)]
      rfl
    | int n => simp at hv
    | float n => simp at hv
    | str n => simp at hv
    | list n => simp at hv

theorem fieldsRead (fs : Fields) (d : List (Text × Val)) (r : List (Text × CVal)) (hv : fieldsOf fs d = some r)
    (hf : FieldsFit fs d) :
    ∃ b, showFields fs d = .ok b ∧ (∀ s rest, white s = white (b ++ rest) → ∃ rest', white rest' = white rest ∧
      readFields fs s = some (r, rest')) ∧ oneLine b = true := by
  match fs with
  | .nil =>
    rw [fieldsOf.eq_def] at hv
    cases hv
    refine ⟨[], by rw [showFields.eq_def], ?_, rfl⟩
    intro s rest hs
    exact ⟨s, hs, by rw [readFields.eq_def]⟩
  | .cons n ty array rest =>
    rw [fieldsOf.eq_def] at hv
    rw [FieldsFit.eq_def] at hf
    simp only at hv hf
    cases hd : dget d n with
    | none => rw [hd] at hv; cases hv
    | some v =>
      rw [hd] at hv hf
      simp only at hv hf
      obtain ⟨hfv, hfr, hname⟩ := hf
      -- the value of the field
      have hval : ∀ c, (if array then (match v with | .list l => (all (valueOf ty) l).map CVal.list | _ => none)
            else valueOf ty v) = some c →
          ∃ x, showAttr ty v = .ok x ∧
            Reads (fun s => if array then readList (readOne ty) s else readOne ty s) x c := by
        intro c hc
        cases array with
        | true =>
          simp only [if_true] at hc ⊢
          cases v with
          | list l =>
            simp only [Option.map_eq_some_iff] at hc hfv ⊢
            obtain ⟨cs, hcs, rfl⟩ := hc
            obtain ⟨ts, hts, hr⟩ := mapE_reads ty (fun v c h1 h2 => one ty v c h1 h2) l cs hcs hfv
            rw [showAttr, hts]
            exact braces_reads (readOne ty) (fun s s' h => readOne_congr ty h) ts cs hr
          | int _ => cases hc
          | float _ => cases hc
          | str _ => cases hc
          | dict _ => cases hc
        | false =>
          simp only [Bool.false_eq_true, if_false] at hc ⊢
          cases v with
          | list l =>
            exfalso
            rw [valueOf.eq_def] at hc
            cases ty <;> simp at hc
          | int _ => exact one ty _ c hc hfv
          | float _ => exact one ty _ c hc hfv
          | str _ => exact one ty _ c hc hfv
          | dict _ => exact one ty _ c hc hfv
      split at hv
      · cases hv
      · rename_i c hc
        obtain ⟨x, hx, hsolid, hread⟩ := hval c hc
        rw [Option.map_eq_some_iff] at hv
        obtain ⟨r', hr', rfl⟩ := hv
        obtain ⟨b, hb, hrest, hone⟩ := fieldsRead rest d r' hr' hfr
        refine ⟨('.' :: n) ++ [' ', '=', ' '] ++ x ++ [',', '\\', '\n'] ++ b, ?_, ?_, ?_⟩
        · rw [showFields_cons n ty array rest d v hd, hx]
          simp only [hb]
        · intro s tail hs
          rw [show ('.' :: n) ++ [' ', '=', ' '] ++ x ++ [',', '\\', '\n'] ++ b ++ tail
            = '.' :: (n ++ (' ' :: '=' :: ' ' :: (x ++ ',' :: '\\' :: '\n' :: (b ++ tail)))) by simp] at hs
          rw [readFields.eq_def]
          simp only
          rw [token_congr '.' hs, token_same '.' _ (by decide) (by decide) (by decide)]
          have h1 : (some (n ++ (' ' :: '=' :: ' ' :: (x ++ ',' :: '\\' :: '\n' :: (b ++ tail))))).bind (readName n)
              = some (' ' :: '=' :: ' ' :: (x ++ ',' :: '\\' :: '\n' :: (b ++ tail))) := by
            simp [readName]
          rw [h1]
          simp only
          rw [token_congr '=' (white_space _), token_same '=' _ (by decide) (by decide) (by decide)]
          simp only
          have h2 : (if array then readList (readOne ty) (' ' :: (x ++ ',' :: '\\' :: '\n' :: (b ++ tail)))
              else readOne ty (' ' :: (x ++ ',' :: '\\' :: '\n' :: (b ++ tail))))
              = some (c, ',' :: '\\' :: '\n' :: (b ++ tail)) := by
            rw [readList_congr _ (white_space _), readOne_congr _ (white_space _)]
            exact hread _ (stop_comma _)
          rw [h2]
          simp only
          rw [token_same ',' _ (by decide) (by decide) (by decide)]
          simp only
          obtain ⟨rest', hw, hrd⟩ := hrest ('\\' :: '\n' :: (b ++ tail)) tail (white_splice _)
          rw [hrd]
          exact ⟨rest', hw, rfl⟩
        · obtain ⟨_, _, _, _, _, _, _, hx1⟩ := hsolid
          refine oneLine_append _ _ (oneLine_append _ _ (oneLine_append _ _ (oneLine_append _ _ (oneLine_plain _ ?_)
            (by decide)) hx1) (by decide)) hone
          intro y hy
          rcases List.mem_cons.1 hy with rfl | hy
          · decide
          · exact (hname y hy).2.2
end

theorem attr (ty : Ty) (array : Bool) (v : Val) (c : CVal) (hv : attrValue ty array v = some c) (hf : AttrFits ty v) :
    ∃ x, showAttr ty v = .ok x ∧ Reads (readAttr ty array) x c := by
  unfold attrValue at hv
  unfold AttrFits at hf
  cases array with
  | true =>
    simp only [if_true] at hv
    cases v with
    | list l =>
      simp only [Option.map_eq_some_iff] at hv hf
      obtain ⟨cs, hcs, rfl⟩ := hv
      obtain ⟨ts, hts, hr⟩ := mapE_reads ty (fun v c h1 h2 => one ty v c h1 h2) l cs hcs hf
      rw [showAttr, hts]
      exact braces_reads (readOne ty) (fun s s' h => readOne_congr ty h) ts cs hr
    | int _ => cases hv
    | float _ => cases hv
    | str _ => cases hv
    | dict _ => cases hv
  | false =>
    simp only [Bool.false_eq_true, if_false] at hv
    cases v with
    | list l =>
      exfalso
      rw [valueOf.eq_def] at hv
      cases ty <;> simp at hv
    | int _ => exact one ty _ c hv hf
    | float _ => exact one ty _ c hv hf
    | str _ => exact one ty _ c hv hf
    | dict _ => exact one ty _ c hv hf

/-! ## Definitions -/

/-- Every struct is after those that it uses. -/
def Ordered (l : List Found) : Prop :=
  ∀ a f b, l = a ++ f :: b → ∀ n ∈ f.fields.uses, ∃ g ∈ a, g.name = n

theorem ordered_append {l m : List Found} (h1 : Ordered l) (h2 : Ordered m) : Ordered (l ++ m) := by
  intro a f b h n hn
  rcases List.append_eq_append_iff.1 h with ⟨c, rfl, hc⟩ | ⟨c, rfl, hc⟩
  · obtain ⟨g, hg, he⟩ := h2 c f b hc n hn
    exact ⟨g, List.mem_append_right _ hg, he⟩
  · cases c with
    | nil =>
      simp only [List.nil_append] at hc
      obtain ⟨g, hg, he⟩ := h2 [] f b (by simpa using hc.symm) n hn
      exact absurd hg List.not_mem_nil
    | cons x c =>
      simp only [List.cons_append, List.cons.injEq] at hc
      obtain ⟨rfl, rfl⟩ := hc
      exact h1 a f c rfl n hn

mutual
theorem collect_ordered (ty : Ty) (array : Bool) (v : Option Val) (l : List Found) (h : collect ty array v = .ok l) :
    Ordered l ∧ (∀ f ∈ l, (f.name, f.fields) ∈ structsIn ty) ∧
      (∀ n fs, ty = .struct n fs → ∃ f ∈ l, f.name = n) := by
  match ty with
  | .base t =>
    rw [collect.eq_def] at h
    cases h
    refine ⟨?_, by simp, by intro n fs h; cases h⟩
    intro a f b h
    cases a <;> cases h
  | .struct n fs =>
    rw [collect.eq_def] at h
    simp only at h
    split at h
    · cases h
    · rename_i inner hi
      split at h
      · cases h
      · rename_i v' hv'
        cases h
        obtain ⟨h1, h2, h3⟩ := collectFields_ordered fs v inner hi
        refine ⟨?_, ?_, ?_⟩
        · intro a f b h m hm
          rcases List.append_eq_append_iff.1 h with ⟨c, rfl, hc⟩ | ⟨c, rfl, hc⟩
          · cases c with
            | nil =>
              simp only [List.nil_append, List.cons.injEq] at hc
              obtain ⟨rfl, rfl⟩ := hc
              obtain ⟨g, hg, he⟩ := h3 m hm
              exact ⟨g, by simpa using hg, he⟩
            | cons x c =>
              simp only [List.cons_append, List.cons.injEq] at hc
              have := hc.2
              cases c <;> cases this
          · cases c with
            | nil =>
              simp only [List.nil_append, List.cons.injEq] at hc
              obtain ⟨rfl, rfl⟩ := hc
              obtain ⟨g, hg, he⟩ := h3 m hm
              exact ⟨g, by simpa using hg, he⟩
            | cons x c =>
              simp only [List.cons_append, List.cons.injEq] at hc
              obtain ⟨rfl, rfl⟩ := hc
              exact h1 a f c rfl m hm
        · intro f hf
          rw [structsIn]
          rcases List.mem_append.1 hf with hf | hf
          · exact List.mem_cons_of_mem _ (h2 f hf)
          · rw [List.mem_singleton.1 hf]; exact List.mem_cons_self
        · intro m gs hm
          cases hm
          exact ⟨⟨n, fs, v'⟩, by simp, rfl⟩

theorem collectFields_ordered (fs : Fields) (v : Option Val) (l : List Found) (h : collectFields fs v = .ok l) :
    Ordered l ∧ (∀ f ∈ l, (f.name, f.fields) ∈ structsInFields fs) ∧ (∀ n ∈ fs.uses, ∃ f ∈ l, f.name = n) := by
  match fs with
  | .nil =>
    rw [collectFields.eq_def] at h
    cases h
    refine ⟨?_, by simp, by simp [Fields.uses]⟩
    intro a f b h
    cases a <;> cases h
  | .cons n ty array rest =>
    rw [collectFields.eq_def] at h
    simp only at h
    split at h
    · cases h
    · rename_i a ha
      split at h
      · cases h
      · rename_i b hb
        cases h
        obtain ⟨h1, h2, h3⟩ := collectFields_ordered rest v b hb
        cases ty with
        | base t =>
          simp only [Except.ok.injEq] at ha
          subst ha
          simp only [List.nil_append]
          refine ⟨h1, fun f hf => ?_, ?_⟩
          · rw [structsInFields]; exact List.mem_append_right _ (h2 f hf)
          · rw [Fields.uses]; exact h3
        | struct m gs =>
          match v, ha with
          | some (.dict d), ha =>
            obtain ⟨k1, k2, k3⟩ := collect_ordered (.struct m gs) array (dget d n) a ha
            refine ⟨ordered_append k1 h1, fun f hf => ?_, ?_⟩
            · rw [structsInFields]
              rcases List.mem_append.1 hf with hf | hf
              · exact List.mem_append_left _ (k2 f hf)
              · exact List.mem_append_right _ (h2 f hf)
            · rw [Fields.uses]
              intro x hx
              rcases List.mem_cons.1 hx with rfl | hx
              · obtain ⟨f, hf, he⟩ := k3 x gs rfl
                exact ⟨f, List.mem_append_left _ hf, he⟩
              · obtain ⟨f, hf, he⟩ := h3 x hx
                exact ⟨f, List.mem_append_right _ hf, he⟩
end

theorem collectAll_ordered (values : List (Text × Val)) : ∀ (attrs : List Attr) (l : List Found),
    collectAll values attrs = .ok l → Ordered l ∧
      (∀ f ∈ l, (f.name, f.fields) ∈ attrs.flatMap (fun a => structsIn a.ty)) ∧
      (∀ a ∈ attrs, ∀ n fs, a.ty = .struct n fs → ∃ f ∈ l, f.name = n) := by
  intro attrs
  induction attrs with
  | nil =>
    intro l h
    cases h
    refine ⟨?_, by simp, by simp⟩
    intro a f b h
    cases a <;> cases h
  | cons a rest ih =>
    intro l h
    rw [collectAll] at h
    split at h
    · cases h
    · rename_i x hx
      split at h
      · cases h
      · rename_i y hy
        cases h
        obtain ⟨h1, h2, h3⟩ := collect_ordered _ _ _ _ hx
        obtain ⟨k1, k2, k3⟩ := ih y hy
        refine ⟨ordered_append h1 k1, ?_, ?_⟩
        · intro f hf
          rw [List.flatMap_cons]
          rcases List.mem_append.1 hf with hf | hf
          · exact List.mem_append_left _ (h2 f hf)
          · exact List.mem_append_right _ (k2 f hf)
        · intro b hb n fs hn
          rcases List.mem_cons.1 hb with rfl | hb
          · obtain ⟨f, hf, he⟩ := h3 n fs hn
            exact ⟨f, List.mem_append_left _ hf, he⟩
          · obtain ⟨f, hf, he⟩ := k3 b hb n fs hn
            exact ⟨f, List.mem_append_right _ hf, he⟩

/-- What `draw` gives: the first struct of each name that is not drawn yet. -/
theorem draw_spec : ∀ (l : List Found) (drawn : List Text) (ds : List Def), draw drawn l = .ok ds →
    (ds.map (·.name)).Nodup ∧ (∀ d ∈ ds, d.name ∉ drawn) ∧
    (∀ f ∈ l, f.name ∈ drawn ∨ ∃ d ∈ ds, d.name = f.name) ∧
    (∀ d ∈ ds, ∃ f ∈ l, f.name = d.name ∧ define f.value f.fields = .ok d.fields) ∧
    (∀ a d b, ds = a ++ d :: b → ∃ p f q, l = p ++ f :: q ∧ f.name = d.name ∧ define f.value f.fields = .ok d.fields ∧
      ∀ g ∈ p, g.name ∈ drawn ∨ ∃ e ∈ a, e.name = g.name) := by
  intro l
  induction l with
  | nil =>
    intro drawn ds h
    cases h
    refine ⟨by simp, by simp, by simp, by simp, ?_⟩
    intro a d b h
    cases a <;> cases h
  | cons f rest ih =>
    intro drawn ds h
    rw [draw] at h
    split at h
    · rename_i hm
      obtain ⟨h1, h2, h3, h4, h5⟩ := ih drawn ds h
      refine ⟨h1, h2, ?_, ?_, ?_⟩
      · intro g hg
        rcases List.mem_cons.1 hg with rfl | hg
        · exact .inl hm
        · exact h3 g hg
      · intro d hd
        obtain ⟨g, hg, he⟩ := h4 d hd
        exact ⟨g, List.mem_cons_of_mem _ hg, he⟩
      · intro a d b hd
        obtain ⟨p, g, q, rfl, he, hdef, hp⟩ := h5 a d b hd
        refine ⟨f :: p, g, q, rfl, he, hdef, ?_⟩
        intro x hx
        rcases List.mem_cons.1 hx with rfl | hx
        · exact .inl hm
        · exact hp x hx
    · rename_i hm
      split at h
      · cases h
      · rename_i fs hfs
        split at h
        · cases h
        · rename_i r hr
          cases h
          obtain ⟨h1, h2, h3, h4, h5⟩ := ih (f.name :: drawn) r hr
          refine ⟨?_, ?_, ?_, ?_, ?_⟩
          · simp only [List.map_cons, List.nodup_cons]
            refine ⟨?_, h1⟩
            intro hmem
            obtain ⟨d, hd, he⟩ := List.mem_map.1 hmem
            exact h2 d hd (by rw [he]; exact List.mem_cons_self)
          · intro d hd
            rcases List.mem_cons.1 hd with rfl | hd
            · exact hm
            · exact fun hx => h2 d hd (List.mem_cons_of_mem _ hx)
          · intro g hg
            rcases List.mem_cons.1 hg with rfl | hg
            · exact .inr ⟨_, List.mem_cons_self, rfl⟩
            · rcases h3 g hg with hx | ⟨d, hd, he⟩
              · rcases List.mem_cons.1 hx with hx | hx
                · exact .inr ⟨_, List.mem_cons_self, hx.symm⟩
                · exact .inl hx
              · exact .inr ⟨d, List.mem_cons_of_mem _ hd, he⟩
          · intro d hd
            rcases List.mem_cons.1 hd with rfl | hd
            · exact ⟨f, List.mem_cons_self, rfl, hfs⟩
            · obtain ⟨g, hg, he⟩ := h4 d hd
              exact ⟨g, List.mem_cons_of_mem _ hg, he⟩
          · intro a d b hd
            cases a with
            | nil =>
              simp only [List.nil_append, List.cons.injEq] at hd
              obtain ⟨rfl, rfl⟩ := hd
              exact ⟨[], f, rest, rfl, rfl, hfs, by simp⟩
            | cons x a =>
              simp only [List.cons_append, List.cons.injEq] at hd
              obtain ⟨rfl, hd⟩ := hd
              obtain ⟨p, g, q, rfl, he, hdef, hp⟩ := h5 a d b hd
              refine ⟨f :: p, g, q, rfl, he, hdef, ?_⟩
              intro y hy
              rcases List.mem_cons.1 hy with rfl | hy
              · exact .inr ⟨_, List.mem_cons_self, rfl⟩
              · rcases hp y hy with hx | ⟨e, he', hee⟩
                · rcases List.mem_cons.1 hx with hx | hx
                  · exact .inr ⟨_, List.mem_cons_self, hx.symm⟩
                  · exact .inl hx
                · exact .inr ⟨e, List.mem_cons_of_mem _ he', hee⟩

theorem showType_ctype (ty : Ty) : showType ty = ctype ty := by
  cases ty with
  | struct n fs => rfl
  | base t =>
    unfold showType ctype renamed
    simp only [List.lookup_cons, List.lookup_nil]
    by_cases h1 : t = "string".toList
    · subst h1; rfl
    · by_cases h2 : t = "character".toList
      · subst h2; rfl
      · by_cases h3 : t = "boolean".toList
        · subst h3; rfl
        · rw [if_neg h1, if_neg h2, if_neg h3, beq_eq_false_iff_ne.2 h1, beq_eq_false_iff_ne.2 h2, beq_eq_false_iff_ne.2 h3]
          rfl

theorem define_decls (v : Option Val) : ∀ (fs : Fields) (ds : List FieldDef), define v fs = .ok ds →
    ds.map (fun d => (d.name, d.dim.isSome)) = fs.names ∧ ds.map (·.type) = fs.types := by
  intro fs
  match fs with
  | .nil => intro ds h; cases h; exact ⟨rfl, rfl⟩
  | .cons n ty array rest =>
    intro ds h
    rw [define] at h
    split at h
    · cases h
    · rename_i dim hdim
      split at h
      · cases h
      · rename_i r hr
        cases h
        have := define_decls v rest r hr
        constructor
        · simp only [List.map_cons, Fields.names, this.1, List.cons.injEq, Prod.mk.injEq, true_and, and_true]
          cases array with
          | true =>
            simp only [if_true] at hdim
            cases hd : dimension v n with
            | error e => rw [hd] at hdim; cases hdim
            | ok k => rw [hd] at hdim; cases hdim; rfl
          | false =>
            simp only [Bool.false_eq_true, if_false, Except.ok.injEq] at hdim
            subst hdim; rfl
        · simp only [List.map_cons, Fields.types, this.2, showType_ctype]

theorem define_dims (d : List (Text × Val)) : ∀ (fs : Fields) (ds : List FieldDef), define (some (.dict d)) fs = .ok ds →
    d ≠ [] → ∀ f ∈ ds, ∀ l, dget d f.name = some (.list l) → ∀ k, f.dim = some k → k = l.length := by
  intro fs
  match fs with
  | .nil => intro ds h _ f hf; cases h; cases hf
  | .cons n ty array rest =>
    intro ds h hne f hf l hl k hk
    rw [define] at h
    split at h
    · cases h
    · rename_i dim hdim
      split at h
      · cases h
      · rename_i r hr
        cases h
        rcases List.mem_cons.1 hf with rfl | hf
        · simp only at hl hk
          subst hk
          cases array with
          | true =>
            simp only [if_true] at hdim
            cases d with
            | nil => exact absurd rfl hne
            | cons x d =>
              simp only [dimension, hl, Except.map, Except.ok.injEq, Option.some.injEq] at hdim
              exact hdim.symm
          | false => simp at hdim
        · exact define_dims d rest r hr hne f hf l hl k hk

/-! ## Success -/

theorem fields_dget (d : List (Text × Val)) : ∀ (fs : Fields) (r : List (Text × CVal)), fieldsOf fs d = some r →
    ∃ ds, define (some (.dict d)) fs = .ok ds := by
  intro fs
  match fs with
  | .nil => intro _ _; exact ⟨[], rfl⟩
  | .cons n ty array rest =>
    intro r h
    rw [fieldsOf.eq_def] at h
    simp only at h
    cases hd : dget d n with
    | none => rw [hd] at h; cases h
    | some v =>
      rw [hd] at h
      simp only at h
      split at h
      · cases h
      · rename_i c hc
        rw [Option.map_eq_some_iff] at h
        obtain ⟨r', hr', rfl⟩ := h
        obtain ⟨ds, hds⟩ := fields_dget d rest r' hr'
        cases array with
        | false => exact ⟨⟨showType ty, n, none⟩ :: ds, by rw [define]; simp [hds]⟩
        | true =>
          simp only [if_true] at hc
          cases v with
          | list l =>
            refine ⟨⟨showType ty, n, some l.length⟩ :: ds, ?_⟩
            rw [define]
            cases d with
            | nil => cases hd
            | cons x d => simp [dimension, hd, hds, Except.map]
          | int _ => cases hc
          | float _ => cases hc
          | str _ => cases hc
          | dict _ => cases hc

theorem define_none : ∀ fs : Fields, ∃ ds, define none fs = .ok ds := by
  intro fs
  match fs with
  | .nil => exact ⟨[], rfl⟩
  | .cons n ty array rest =>
    obtain ⟨ds, hds⟩ := define_none rest
    cases array with
    | false => exact ⟨⟨showType ty, n, none⟩ :: ds, by rw [define]; simp [hds]⟩
    | true => exact ⟨⟨showType ty, n, some 0⟩ :: ds, by rw [define]; simp [dimension, hds, Except.map]⟩

theorem collectFields_flat : ∀ (fs : Fields) (v : Option Val), fs.uses = [] → collectFields fs v = .ok [] := by
  intro fs
  match fs with
  | .nil => intro v _; rw [collectFields.eq_def]
  | .cons n ty array rest =>
    intro v h
    cases ty with
    | struct m gs => rw [Fields.uses] at h; cases h
    | base t =>
      rw [Fields.uses] at h
      rw [collectFields.eq_def]
      simp only
      rw [collectFields_flat rest v h]
      rfl

/-- A value that can be measured. -/
def Measurable (f : Found) : Prop := ∃ ds, define f.value f.fields = .ok ds

/-- An array of values. -/
theorem array_ok (n : Text) (fs : Fields) (v : Val) (c : CVal) (hflat : fs.uses = [])
    (h : attrValue (.struct n fs) true v = some c) :
    ∃ l, collect (.struct n fs) true (some v) = .ok l ∧ ∀ f ∈ l, Measurable f := by
  unfold attrValue at h
  simp only [if_true] at h
  cases v with
  | list l =>
    simp only at h
    rw [collect.eq_def]
    simp only
    rw [collectFields_flat fs _ hflat]
    simp only [if_true, List.nil_append]
    cases l with
    | nil =>
      refine ⟨_, rfl, ?_⟩
      intro f hf
      rw [List.mem_singleton.1 hf]
      exact define_none fs
    | cons w r =>
      refine ⟨_, rfl, ?_⟩
      intro f hf
      rw [List.mem_singleton.1 hf]
      rw [Option.map_eq_some_iff] at h
      obtain ⟨cs, hcs, _⟩ := h
      rw [all] at hcs
      split at hcs
      · rename_i b bs hb hbs
        rw [valueOf.eq_def] at hb
        cases w with
        | dict d =>
          simp only [Option.map_eq_some_iff] at hb
          obtain ⟨r, hr, _⟩ := hb
          exact fields_dget d fs r hr
        | int _ => simp at hb
        | float _ => simp at hb
        | str _ => simp at hb
        | list _ => simp at hb
      · cases hcs
  | int _ => cases h
  | float _ => cases h
  | str _ => cases h
  | dict _ => cases h

mutual
theorem collect_ok (ty : Ty) (array : Bool) (v : Val) (c : CVal) (hn : NoNested ty array)
    (h : attrValue ty array v = some c) :
    ∃ l, collect ty array (some v) = .ok l ∧ ∀ f ∈ l, Measurable f := by
  match ty with
  | .base t => exact ⟨[], by rw [collect.eq_def], by simp⟩
  | .struct n fs =>
    rw [NoNested] at hn
    cases array with
    | true =>
      exact array_ok n fs v c (hn.1 rfl) h
    | false =>
      unfold attrValue at h
      simp only [Bool.false_eq_true, if_false] at h
      rw [valueOf.eq_def] at h
      cases v with
      | dict d =>
        simp only [Option.map_eq_some_iff] at h
        obtain ⟨r, hr, _⟩ := h
        obtain ⟨l, hl, hm⟩ := collectFields_ok fs d r hn.2 hr
        rw [collect.eq_def]
        simp only [hl, Bool.false_eq_true, if_false]
        refine ⟨_, rfl, ?_⟩
        intro f hf
        rcases List.mem_append.1 hf with hf | hf
        · exact hm f hf
        · rw [List.mem_singleton.1 hf]
          exact fields_dget d fs r hr
      | int _ => simp at h
      | float _ => simp at h
      | str _ => simp at h
      | list _ => simp at h

theorem collectFields_ok (fs : Fields) (d : List (Text × Val)) (r : List (Text × CVal)) (hn : NoNestedFields fs)
    (h : fieldsOf fs d = some r) :
    ∃ l, collectFields fs (some (.dict d)) = .ok l ∧ ∀ f ∈ l, Measurable f := by
  match fs with
  | .nil => exact ⟨[], by rw [collectFields.eq_def], by simp⟩
  | .cons n ty array rest =>
    rw [NoNestedFields] at hn
    rw [fieldsOf.eq_def] at h
    simp only at h
    cases hd : dget d n with
    | none => rw [hd] at h; cases h
    | some v =>
      rw [hd] at h
      simp only at h
      split at h
      · cases h
      · rename_i c hc
        rw [Option.map_eq_some_iff] at h
        obtain ⟨r', hr', _⟩ := h
        obtain ⟨l, hl, hm⟩ := collectFields_ok rest d r' hn.2 hr'
        obtain ⟨l', hl', hm'⟩ := collect_ok ty array v c hn.1 (by
          unfold attrValue
          rw [← hc]
          all_goals (cases array <;> cases v <;> rfl))
        rw [collectFields.eq_def]
        simp only
        cases ty with
        | base t =>
          simp only [hl]
          exact ⟨_, rfl, by simpa using hm⟩
        | struct m gs =>
          simp only [hd, hl, hl']
          refine ⟨_, rfl, ?_⟩
          intro f hf
          rcases List.mem_append.1 hf with hf | hf
          · exact hm' f hf
          · exact hm f hf
end

theorem draw_ok : ∀ (l : List Found) (drawn : List Text), (∀ f ∈ l, Measurable f) → ∃ ds, draw drawn l = .ok ds := by
  intro l
  induction l with
  | nil => intro _ _; exact ⟨[], rfl⟩
  | cons f rest ih =>
    intro drawn h
    rw [draw]
    split
    · exact ih drawn (fun g hg => h g (List.mem_cons_of_mem _ hg))
    · obtain ⟨fs, hfs⟩ := h f List.mem_cons_self
      obtain ⟨ds, hds⟩ := ih (f.name :: drawn) (fun g hg => h g (List.mem_cons_of_mem _ hg))
      simp only [hfs, hds]
      exact ⟨_, rfl⟩

theorem collectAll_append (values : List (Text × Val)) (xs ys : List Attr) (l : List Found)
    (h : collectAll values (xs ++ ys) = .ok l) :
    ∃ p q, collectAll values xs = .ok p ∧ collectAll values ys = .ok q ∧ l = p ++ q := by
  induction xs generalizing l with
  | nil => exact ⟨[], l, rfl, h, rfl⟩
  | cons a rest ih =>
    rw [List.cons_append, collectAll] at h
    split at h
    · cases h
    · rename_i x hx
      split at h
      · cases h
      · rename_i y hy
        cases h
        obtain ⟨p, q, hp, hq, rfl⟩ := ih y hy
        exact ⟨x ++ p, q, by rw [collectAll, hx]; simp only [hp], hq, by simp⟩

/-! ## Strings -/

theorem readString_length (x r rest : Text) (h : readString x = some (r, rest)) :
    r.length + 1 + rest.length ≤ x.length ∧ (r.length + 1 + rest.length = x.length → Plain r) := by
  induction x using readString.induct generalizing r rest with
  | case1 s =>
    rw [readString] at h
    cases h
    exact ⟨by simp; omega, by intro _ c hc; cases hc⟩
  | case2 s => rw [readString] at h; cases h
  | case3 s ih =>
    rw [readString] at h
    have := (ih r rest h).1
    simp only [List.length_cons]
    exact ⟨by omega, by omega⟩
  | case4 c s hc d r' s' hr hd ih =>
    rw [readString] at h
    · rw [hd, hr] at h
      cases h
      have := (ih _ _ hr).1
      simp only [List.length_cons]
      exact ⟨by omega, by omega⟩
    · exact hc
  | case5 s c hc hne ih =>
    rw [readString] at h
    · split at h
      · rename_i a b h1 h2
        exact absurd h2 (hne _ _ _ h1)
      · cases h
    · exact hc
  | case6 c s h1 h2 h3 h4 r' s' hr ih =>
    rw [readString] at h
    · rw [hr] at h
      cases h
      have := ih _ _ hr
      simp only [List.length_cons]
      refine ⟨by omega, ?_⟩
      intro he d hd
      rcases List.mem_cons.1 hd with rfl | hd
      · refine ⟨h1, ?_, h2⟩
        rintro rfl
        cases s with
        | nil => rw [readString] at hr; cases hr
        | cons x s => exact h4 x s rfl rfl
      · exact this.2 (by omega) d hd
    all_goals assumption
  | case7 c s h1 h2 h3 h4 hr ih =>
    rw [readString] at h
    · rw [hr] at h
      cases h
    all_goals assumption
  | case8 => rw [readString] at h; cases h

end Verif.AttrText
