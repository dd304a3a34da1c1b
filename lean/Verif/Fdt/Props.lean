import Verif.Fdt.Spec
import Mathlib.Tactic.Ring
import Mathlib.Tactic.Linarith
import Mathlib.Data.List.Forall2
import Mathlib.Data.List.Induction
import Mathlib.Data.Nat.Bitwise

namespace Verif.Fdt
open Spec

/-! ### Packing -/

theorem mask_eq (x : Nat) : x &&& (1 <<< 32 - 1) = x % 2 ^ 32 := by
  have : (1 <<< 32 - 1 : Nat) = 2 ^ 32 - 1 := by decide
  rw [this, Nat.and_two_pow_sub_one_eq_mod]

theorem cells_succ (n x : Nat) : cells (n + 1) x = cells n (x / 2 ^ 32) ++ [x % 2 ^ 32] := by
  unfold cells
  rw [List.range_succ, List.map_append]
  congr 1
  · apply List.map_congr_left
    intro i hi
    rw [List.mem_range] at hi
    have : 32 * (n + 1 - 1 - i) = 32 + 32 * (n - 1 - i) := by omega
    rw [this, Nat.pow_add, Nat.div_div_eq_div_mul]
  · simp

theorem cells_length (n x : Nat) : (cells n x).length = n := by simp [cells]

theorem cells_lt (n x : Nat) : ∀ w ∈ cells n x, w < 2 ^ 32 := by
  intro w hw
  simp only [cells, List.mem_map] at hw
  obtain ⟨i, _, rfl⟩ := hw
  exact Nat.mod_lt _ (by decide)

theorem fits_succ (n x : Nat) : Fits (n + 1) x ↔ Fits n (x / 2 ^ 32) := by
  unfold Fits
  have : (2 : Nat) ^ (32 * (n + 1)) = 2 ^ (32 * n) * 2 ^ 32 := by rw [← Nat.pow_add]; congr 1
  rw [this, Nat.div_lt_iff_lt_mul (by decide)]

/-- C27: packing writes the big-endian cells of a number that fits, and is an error otherwise. -/
theorem pack_spec : ∀ (n x : Nat),
    (Fits n x → pack x n = .ok (cells n x)) ∧ (¬ Fits n x → ∃ e, pack x n = .error e) := by
  intro n
  induction n with
  | zero =>
    intro x
    simp only [Fits, Nat.mul_zero, Nat.pow_zero, pack]
    constructor
    · intro h
      have : x = 0 := by omega
      simp [this, cells]
    · intro h
      have : x ≠ 0 := by omega
      simp [this]
  | succ n ih =>
    intro x
    have hs : x >>> 32 = x / 2 ^ 32 := Nat.shiftRight_eq_div_pow x 32
    rw [fits_succ]
    constructor
    · intro h
      simp only [pack, hs, (ih (x / 2 ^ 32)).1 h, mask_eq, cells_succ]
    · intro h
      obtain ⟨e, he⟩ := (ih (x / 2 ^ 32)).2 h
      exact ⟨e, by simp only [pack, hs, he]⟩

/-! ### Unpacking -/

theorem join_append (a : List Nat) (b : Nat) : join (a ++ [b]) = join a * 2 ^ 32 + b := by
  simp [join, List.foldl_append, Nat.shiftLeft_eq]

theorem join_cells : ∀ (n x : Nat), Fits n x → join (cells n x) = x := by
  intro n
  induction n with
  | zero => intro x h; simp only [Fits, Nat.mul_zero, Nat.pow_zero] at h; simp [cells, join]; omega
  | succ n ih =>
    intro x h
    rw [fits_succ] at h
    rw [cells_succ, join_append, ih _ h, Nat.div_add_mod']

theorem cells_join : ∀ (ws : List Nat), (∀ w ∈ ws, w < 2 ^ 32) →
    cells ws.length (join ws) = ws ∧ Fits ws.length (join ws) := by
  intro ws
  induction ws using List.reverseRecOn with
  | nil => intro _; simp [cells, join, Fits]
  | append_singleton ws w ih =>
    intro h
    have h1 := ih (fun v hv => h v (by simp [hv]))
    have hw := h w (by simp)
    have hd : (join ws * 2 ^ 32 + w) / 2 ^ 32 = join ws := by omega
    have hm : (join ws * 2 ^ 32 + w) % 2 ^ 32 = w := by omega
    rw [join_append, List.length_append, List.length_singleton, cells_succ, fits_succ, hd, hm, h1.1]
    exact ⟨rfl, h1.2⟩

theorem unpack_rowCells : ∀ (sizes vals rest : List Nat), RowFits sizes vals →
    unpack (rowCells sizes vals ++ rest) sizes = (vals, rest) := by
  intro sizes vals rest h
  induction h with
  | nil => simp [rowCells, unpack]
  | @cons n x ns xs hx _ ih =>
    have he : rowCells (n :: ns) (x :: xs) ++ rest = cells n x ++ (rowCells ns xs ++ rest) := by
      simp [rowCells]
    rw [he]
    simp only [unpack]
    have ht : (cells n x ++ (rowCells ns xs ++ rest)).take n = cells n x := by
      rw [List.take_append_of_le_length (by rw [cells_length]), List.take_of_length_le (by rw [cells_length])]
    have hd : (cells n x ++ (rowCells ns xs ++ rest)).drop n = rowCells ns xs ++ rest := by
      rw [List.drop_append_of_le_length (by rw [cells_length]), List.drop_of_length_le (by rw [cells_length])]
      simp
    rw [ht, hd, ih, join_cells n x hx]

theorem rowCells_length : ∀ (sizes vals : List Nat), sizes.length = vals.length →
    (rowCells sizes vals).length = sizes.sum := by
  intro sizes
  induction sizes with
  | nil => intro vals _; simp [rowCells]
  | cons n ns ih =>
    intro vals h
    cases vals with
    | nil => simp at h
    | cons x xs =>
      have := ih xs (by simpa using h)
      simp only [rowCells, List.zipWith_cons_cons, List.flatten_cons, List.length_append, cells_length,
        List.sum_cons] at *
      omega

theorem rowFits_length {sizes vals : List Nat} (h : RowFits sizes vals) : sizes.length = vals.length := h.length_eq

/-- C27: unpacking a sequence of rows that were packed returns the rows, in order. -/
theorem unpacker_rows (sizes : List Nat) (hpos : 0 < sizes.sum) : ∀ (rows : List (List Nat)) (fuel : Nat),
    (∀ r ∈ rows, RowFits sizes r) → rows.length < fuel →
    unpacker fuel (rows.map (rowCells sizes)).flatten sizes = some rows := by
  intro rows
  induction rows with
  | nil => intro fuel _ hf; cases fuel with
    | zero => simp at hf
    | succ f => simp [unpacker]
  | cons r rows ih =>
    intro fuel h hf
    cases fuel with
    | zero => simp at hf
    | succ f =>
      have hr := h r (by simp)
      have hl := rowCells_length sizes r (rowFits_length hr)
      have hne : ((r :: rows).map (rowCells sizes)).flatten.isEmpty = false := by
        simp only [List.map_cons, List.flatten_cons]
        cases hc : rowCells sizes r ++ (rows.map (rowCells sizes)).flatten with
        | nil =>
          have := congrArg List.length hc
          simp only [List.length_append, List.length_nil] at this
          omega
        | cons _ _ => rfl
      simp only [unpacker, hne]
      simp only [List.map_cons, List.flatten_cons, unpack_rowCells sizes r _ hr, Bool.false_eq_true, if_false]
      rw [ih f (fun r' hr' => h r' (by simp [hr'])) (by simpa using hf)]
      rfl

/-- C27: data that consists of whole rows of 32-bit words is given back when the unpacked numbers
are packed again. -/
theorem pack_unpack (sizes : List Nat) : ∀ (data : List Nat), (∀ w ∈ data, w < 2 ^ 32) → sizes.sum ≤ data.length →
    RowFits sizes (unpack data sizes).1 ∧
    rowCells sizes (unpack data sizes).1 ++ (unpack data sizes).2 = data := by
  induction sizes with
  | nil => intro data _ _; simp [unpack, RowFits, rowCells]
  | cons n ns ih =>
    intro data hw hl
    simp only [List.sum_cons] at hl
    obtain ⟨i1, i2⟩ := ih (data.drop n) (fun w h => hw w (List.mem_of_mem_drop h)) (by rw [List.length_drop]; omega)
    have hlen : (data.take n).length = n := by rw [List.length_take]; omega
    obtain ⟨c1, c2⟩ := cells_join (data.take n) (fun w h => hw w (List.mem_of_mem_take h))
    rw [hlen] at c1 c2
    simp only [unpack]
    refine ⟨.cons c2 i1, ?_⟩
    have : rowCells (n :: ns) (join (data.take n) :: (unpack (data.drop n) ns).1) =
        cells n (join (data.take n)) ++ rowCells ns (unpack (data.drop n) ns).1 := by simp [rowCells]
    rw [this, List.append_assoc, i2, c1, List.take_append_drop]

/-- C27 does not hold in full: data that ends in the middle of a number is accepted, and read as
a different number. -/
theorem short_data_accepted : unpacker 2 [7, 8, 9] [2, 2] = some [[7 * 2 ^ 32 + 8, 9]] := by decide

/-- ... and with cell counts that are all zero, unpacking never ends. -/
theorem zero_cells_never_end (data : List Nat) (hd : data ≠ []) (k fuel : Nat) :
    unpacker fuel data (List.replicate k 0) = none := by
  have hu : ∀ k d, (unpack d (List.replicate k 0)).2 = d := by
    intro k
    induction k with
    | zero => intro d; simp [unpack]
    | succ k ih => intro d; simp only [List.replicate_succ, unpack, List.drop_zero]; exact ih d
  induction fuel with
  | zero => rfl
  | succ f ih =>
    have he : data.isEmpty = false := by cases data with | nil => exact absurd rfl hd | cons _ _ => rfl
    simp only [unpacker, he, Bool.false_eq_true, if_false]
    rw [hu k data, ih]
    rfl

/-! ### Translation -/

theorem xlatBus_step (size a : Nat) : ∀ (ts : List Window) (r : Nat),
    xlatBus a size ts = .ok r ↔ Step ts size a r := by
  have hc : ∀ w : Window, (a < w.fromStart ∨ (a : Int) > (w.fromStart : Int) + w.size - 1) ↔ ¬ Window.Contains w a := by
    intro w; unfold Window.Contains; omega
  intro ts
  induction ts with
  | nil =>
    intro r
    simp only [xlatBus, Except.ok.injEq]
    constructor
    · rintro rfl; exact .outside a (by simp)
    · intro h
      cases h with
      | inside pre w post he => simp at he
      | outside => rfl
  | cons w ts ih =>
    intro r
    simp only [xlatBus]
    split
    · rename_i hn
      rw [hc] at hn
      rw [ih]
      constructor
      · intro h
        cases h with
        | inside pre v post he hp hv hs =>
          exact .inside a (w :: pre) v post (by simp [he]) (by simp [hn]; exact hp) hv hs
        | outside ho => exact .outside a (by simp [hn]; exact ho)
      · intro h
        cases h with
        | inside pre v post he hp hv hs =>
          cases pre with
          | nil => simp only [List.nil_append, List.cons.injEq] at he; exact absurd (he.1 ▸ hv) hn
          | cons p pre =>
            simp only [List.cons_append, List.cons.injEq] at he
            exact .inside a pre v post he.2 (fun x hx => hp x (by simp [hx])) hv hs
        | outside ho => exact .outside a (fun v hv => ho v (by simp [hv]))
    · rename_i hn
      rw [hc, not_not] at hn
      split
      · rename_i hs
        constructor
        · intro h; cases h
        · intro h
          exfalso
          cases h with
          | inside pre v post he hp hv hs' =>
            cases pre with
            | nil => simp only [List.nil_append, List.cons.injEq] at he; obtain ⟨rfl, _⟩ := he; omega
            | cons p pre =>
              simp only [List.cons_append, List.cons.injEq] at he
              exact hp p (by simp) (he.1 ▸ hn)
          | outside ho => exact ho w (by simp) hn
      · rename_i hs
        simp only [Except.ok.injEq]
        constructor
        · rintro rfl
          exact .inside a [] w ts rfl (by simp) hn (by omega)
        · intro h
          cases h with
          | inside pre v post he hp hv hs' =>
            cases pre with
            | nil => simp only [List.nil_append, List.cons.injEq] at he; obtain ⟨rfl, _⟩ := he; rfl
            | cons p pre =>
              simp only [List.cons_append, List.cons.injEq] at he
              exact absurd (he.1 ▸ hn) (hp p (by simp))
          | outside ho => exact absurd hn (ho w (by simp))

/-- C28: an address is translated along the route through all the buses, and an error is raised
exactly if there is no such route (a region is only partly in its window). -/
theorem xlatReg_route (size : Nat) : ∀ (buses : List Bus) (a r : Nat),
    xlatReg a size buses = .ok r ↔ Route size (buses.map (·.translations)) a r := by
  intro buses
  induction buses with
  | nil =>
    intro a r
    simp only [xlatReg, List.map_nil, Except.ok.injEq]
    constructor
    · rintro rfl; exact .root a
    · intro h; cases h; rfl
  | cons b bs ih =>
    intro a r
    simp only [xlatReg, List.map_cons]
    cases hb : b.translations with
    | none =>
      simp only []
      rw [ih]
      constructor
      · exact fun h => .plain _ a r h
      · intro h; cases h; assumption
    | some ts =>
      simp only []
      cases hx : xlatBus a size ts with
      | error e =>
        simp only []
        constructor
        · intro h; cases h
        · intro h
          cases h with
          | ranges _ _ _ a' _ h1 h2 => rw [← xlatBus_step, hx] at h1; cases h1
      | ok a' =>
        simp only []
        rw [ih]
        constructor
        · intro h; exact .ranges ts _ a a' r ((xlatBus_step size a ts a').mp hx) h
        · intro h
          cases h with
          | ranges _ _ _ a'' _ h1 h2 =>
            rw [← xlatBus_step, hx] at h1; cases h1; exact h2

theorem rowCells_pair (n m x y : Nat) : rowCells [n, m] [x, y] = cells n x ++ cells m y := by
  simp [rowCells]

/-- The register list with every address translated. -/
theorem xlatLoop_ok (ac sc : Nat) (buses : List Bus) (hpos : 0 < ac + sc) :
    ∀ (regs : List (Nat × Nat)) (out : List Nat) (fuel : Nat), regs.length < fuel →
    (∀ r ∈ regs, Fits ac r.1 ∧ Fits sc r.2) → out.length = regs.length →
    (∀ i (h : i < regs.length) (h' : i < out.length),
      xlatReg regs[i].1 regs[i].2 buses = .ok out[i] ∧ Fits ac out[i]) →
    xlatLoop ac sc buses fuel (regs.map (fun r => rowCells [ac, sc] [r.1, r.2])).flatten =
      some (.ok (List.zipWith (fun (r : Nat × Nat) a => rowCells [ac, sc] [a, r.2]) regs out).flatten) := by
  intro regs
  induction regs with
  | nil =>
    intro out fuel hf _ _ _
    cases fuel with
    | zero => simp at hf
    | succ f => simp [xlatLoop]
  | cons r regs ih =>
    intro out fuel hf hfit hl h
    cases out with
    | nil => simp at hl
    | cons o out =>
      cases fuel with
      | zero => simp at hf
      | succ f =>
        obtain ⟨f1, f2⟩ := hfit r (by simp)
        have hrow : RowFits [ac, sc] [r.1, r.2] := .cons f1 (.cons f2 .nil)
        have hlen := rowCells_length [ac, sc] [r.1, r.2] rfl
        simp only [List.sum_cons, List.sum_nil] at hlen
        obtain ⟨h1, h2⟩ := h 0 (by simp) (by simp)
        simp only [List.getElem_cons_zero] at h1 h2
        have hne : ((r :: regs).map (fun r => rowCells [ac, sc] [r.1, r.2])).flatten.isEmpty = false := by
          simp only [List.map_cons, List.flatten_cons]
          cases hc : rowCells [ac, sc] [r.1, r.2] ++ (regs.map (fun r => rowCells [ac, sc] [r.1, r.2])).flatten with
          | nil =>
            have := congrArg List.length hc
            simp only [List.length_append, List.length_nil] at this
            omega
          | cons _ _ => rfl
        simp only [xlatLoop, hne, Bool.false_eq_true, if_false]
        simp only [List.map_cons, List.flatten_cons, unpack_rowCells [ac, sc] [r.1, r.2] _ hrow, h1,
          (pack_spec ac o).1 h2, (pack_spec sc r.2).1 f2]
        rw [ih out f (by simpa using hf) (fun r' hr' => hfit r' (by simp [hr'])) (by simpa using hl)
          (fun i hi hi' => by
            have := h (i + 1) (by simp; omega) (by simp; omega)
            simpa using this)]
        simp [Except.map, rowCells_pair]

/-- A register that cannot be translated, or whose translation does not fit, is an error. -/
theorem xlatLoop_error (ac sc : Nat) (buses : List Bus) (hpos : 0 < ac + sc) :
    ∀ (regs : List (Nat × Nat)) (fuel : Nat), regs.length < fuel →
    (∀ r ∈ regs, Fits ac r.1 ∧ Fits sc r.2) →
    (∃ r ∈ regs, ∀ o, xlatReg r.1 r.2 buses = .ok o → ¬ Fits ac o) →
    ∃ e, xlatLoop ac sc buses fuel (regs.map (fun r => rowCells [ac, sc] [r.1, r.2])).flatten =
      some (.error e) := by
  intro regs
  induction regs with
  | nil => intro _ _ _ h; simp at h
  | cons r regs ih =>
    intro fuel hf hfit hbad
    cases fuel with
    | zero => simp at hf
    | succ f =>
      obtain ⟨f1, f2⟩ := hfit r (by simp)
      have hrow : RowFits [ac, sc] [r.1, r.2] := .cons f1 (.cons f2 .nil)
      have hlen := rowCells_length [ac, sc] [r.1, r.2] rfl
      simp only [List.sum_cons, List.sum_nil] at hlen
      have hne : ((r :: regs).map (fun r => rowCells [ac, sc] [r.1, r.2])).flatten.isEmpty = false := by
        simp only [List.map_cons, List.flatten_cons]
        cases hc : rowCells [ac, sc] [r.1, r.2] ++ (regs.map (fun r => rowCells [ac, sc] [r.1, r.2])).flatten with
        | nil =>
          have := congrArg List.length hc
          simp only [List.length_append, List.length_nil] at this
          omega
        | cons _ _ => rfl
      simp only [xlatLoop, hne, Bool.false_eq_true, if_false]
      simp only [List.map_cons, List.flatten_cons, unpack_rowCells [ac, sc] [r.1, r.2] _ hrow]
      cases hx : xlatReg r.1 r.2 buses with
      | error e => exact ⟨e, rfl⟩
      | ok o =>
        simp only []
        by_cases ho : Fits ac o
        · rw [(pack_spec ac o).1 ho]
          simp only [(pack_spec sc r.2).1 f2]
          have : ∃ r ∈ regs, ∀ o, xlatReg r.1 r.2 buses = .ok o → ¬ Fits ac o := by
            obtain ⟨r', hr', hb⟩ := hbad
            rcases List.mem_cons.mp hr' with rfl | hr'
            · exact absurd ho (hb o hx)
            · exact ⟨r', hr', hb⟩
          obtain ⟨e, he⟩ := ih f (by simpa using hf) (fun r' hr' => hfit r' (by simp [hr'])) this
          rw [he]
          exact ⟨e, rfl⟩
        · obtain ⟨e, he⟩ := (pack_spec ac o).2 ho
          rw [he]
          exact ⟨e, rfl⟩

theorem resolveTranslations_spec {raw : List RawBus} {tables : List (Option (List Window))}
    (h : EncodesAll raw tables) : ∀ fuel, (∀ b ∈ raw, ∀ ws, b.ranges = some ws → ws.length < fuel) →
    ∃ buses, resolveTranslations fuel raw = some (.ok buses) ∧ buses.map (·.translations) = tables ∧
      buses.map (fun b => (b.ac, b.sc)) = raw.map (fun b => (b.ac, b.sc)) := by
  induction h with
  | root b hb =>
    intro fuel _
    exact ⟨[⟨b.ac, b.sc, none⟩], by simp [resolveTranslations, hb, Except.map], rfl, rfl⟩
  | cons b pb bs t ts he _ ih =>
    intro fuel hf
    obtain ⟨buses, h1, h2, h3⟩ := ih fuel (fun x hx => hf x (by simp [hx]))
    cases t with
    | none =>
      simp only [Encodes] at he
      refine ⟨⟨b.ac, b.sc, none⟩ :: buses, ?_, by simp [h2], by simpa using h3⟩
      rw [resolveTranslations]
      simp only [he]
      rw [h1]; rfl
    | some ws =>
      simp only [Encodes] at he
      obtain ⟨e1, e2, e3⟩ := he
      refine ⟨⟨b.ac, b.sc, some ws⟩ :: buses, ?_, by simp [h2], by simpa using h3⟩
      have hlen := hf b (by simp) _ e1
      have hrows : unpacker fuel (ws.map (fun w => rowCells [b.ac, pb.ac, b.sc] [w.fromStart, w.toStart, w.size])).flatten
          [b.ac, pb.ac, b.sc] = some (ws.map (fun w => [w.fromStart, w.toStart, w.size])) := by
        by_cases hws : ws = []
        · subst hws
          cases fuel with
          | zero => simp at hlen
          | succ f => simp [unpacker]
        · have hp := e3 hws
          have hmap : (ws.map (fun w => rowCells [b.ac, pb.ac, b.sc] [w.fromStart, w.toStart, w.size])) =
              (ws.map (fun w => [w.fromStart, w.toStart, w.size])).map (rowCells [b.ac, pb.ac, b.sc]) := by
            rw [List.map_map]; rfl
          rw [hmap]
          apply unpacker_rows
          · simp; omega
          · intro r hr
            obtain ⟨w, hw, rfl⟩ := List.mem_map.mp hr
            exact e2 w hw
          · have : ∀ (l : List Window), l.length ≤ (l.map (fun w => rowCells [b.ac, pb.ac, b.sc] [w.fromStart, w.toStart, w.size])).flatten.length := by
              intro l
              induction l with
              | nil => simp
              | cons w l ih =>
                have := rowCells_length [b.ac, pb.ac, b.sc] [w.fromStart, w.toStart, w.size] rfl
                simp only [List.map_cons, List.flatten_cons, List.length_append, this, List.length_cons,
                  List.sum_cons, List.sum_nil]
                omega
            have := this ws
            rw [List.length_map]
            omega
      rw [resolveTranslations]
      simp only [e1]
      rw [hrows, h1]
      simp only [Option.map_some, Except.map, List.map_map]
      have : (toWindow ∘ fun w : Window => [w.fromStart, w.toStart, w.size]) = id := by
        funext w; rfl
      rw [this, List.map_id]

theorem foldlM_append {α β : Type} (f : β → α → Except String β) (b : β) (l : List α) (a : α) :
    (l ++ [a]).foldlM f b = (do let x ← l.foldlM f b; f x a) := by
  rw [List.foldlM_append]
  congr 1
  funext x
  simp

theorem lastProp_append (name : String) (props : List Property) (p : Property) :
    lastProp name (props ++ [p]) = if p.1 = name then some p.2 else lastProp name props := by
  simp only [lastProp, List.reverse_append, List.reverse_cons, List.reverse_nil, List.nil_append,
    List.singleton_append, List.find?_cons]
  by_cases h : p.1 = name <;> simp [h]

/-- C28: the bus description read from the properties of an ancestor. -/
theorem busOf_describes : ∀ (props : List Property) (b : RawBus), busOf props = .ok b → Describes props b := by
  intro props
  induction props using List.reverseRecOn with
  | nil =>
    intro b h
    simp only [busOf, List.foldlM_nil] at h
    cases h
    simp [Describes, lastProp]
  | append_singleton props p ih =>
    intro b h
    unfold busOf at h
    rw [foldlM_append] at h
    change (do let x ← busOf props; _) = _ at h
    cases hb : busOf props with
    | error e => rw [hb] at h; cases h
    | ok b0 =>
      rw [hb] at h
      change (if p.1 = "#address-cells" then _ else _ : Except String RawBus) = _ at h
      have hd := ih b0 hb
      obtain ⟨d1, d2, d3⟩ := hd
      unfold Describes
      simp only [lastProp_append]
      by_cases ha : p.1 = "#address-cells"
      · rw [if_pos ha] at h
        have h2 : p.1 ≠ "#size-cells" := by rw [ha]; decide
        have h3 : p.1 ≠ "ranges" := by rw [ha]; decide
        rw [if_neg h3, if_pos ha, if_neg h2]
        split at h
        · rename_i v vs hv
          cases h
          rw [hv]
          exact ⟨d1, rfl, d3⟩
        · cases h
      · rw [if_neg ha] at h
        rw [if_neg ha]
        by_cases hs : p.1 = "#size-cells"
        · rw [if_pos hs] at h
          have h3 : p.1 ≠ "ranges" := by rw [hs]; decide
          rw [if_neg h3, if_pos hs]
          split at h
          · rename_i v vs hv
            cases h
            rw [hv]
            exact ⟨d1, d2, rfl⟩
          · cases h
        · rw [if_neg hs] at h
          rw [if_neg hs]
          by_cases hr : p.1 = "ranges"
          · rw [if_pos hr] at h
            cases h
            rw [if_pos hr]
            exact ⟨rfl, d2, d3⟩
          · rw [if_neg hr] at h
            cases h
            rw [if_neg hr]
            exact ⟨d1, d2, d3⟩

/-- Every ancestor up to the root contributes one bus, in order. -/
theorem resolveBuses_describes : ∀ (anc : List (List Property)) (raw : List RawBus), anc ≠ [] →
    resolveBuses anc = .ok raw → List.Forall₂ Describes anc raw := by
  intro anc
  induction anc with
  | nil => intro _ h; exact absurd rfl h
  | cons p ps ih =>
    intro raw _ h
    cases ps with
    | nil =>
      simp only [resolveBuses] at h
      cases hb : busOf p with
      | error e => rw [hb] at h; cases h
      | ok b =>
        rw [hb] at h
        cases h
        exact .cons (busOf_describes p b hb) .nil
    | cons q qs =>
      simp only [resolveBuses] at h
      cases hb : busOf p with
      | error e => rw [hb] at h; cases h
      | ok b =>
        rw [hb] at h
        cases hr : resolveBuses (q :: qs) with
        | error e => rw [hr] at h; cases h
        | ok bs =>
          rw [hr] at h
          cases h
          exact .cons (busOf_describes p b hb) (ih bs (by simp) hr)

/-- C28: the `reg` property reported for a device has every address translated along its route
through the `ranges` of all its ancestors, and every size unchanged. -/
theorem reg_translated (ancestors : List (List Property)) (b : RawBus) (bs : List RawBus)
    (tables : List (Option (List Window))) (regs : List (Nat × Nat)) (out : List Nat) (fuel : Nat)
    (hraw : resolveBuses ancestors = .ok (b :: bs)) (htab : EncodesAll (b :: bs) tables)
    (hpos : 0 < b.ac + b.sc)
    (hfit : ∀ r ∈ regs, Fits b.ac r.1 ∧ Fits b.sc r.2)
    (hlen : out.length = regs.length)
    (hroute : ∀ i (h : i < regs.length) (h' : i < out.length),
      Route regs[i].2 tables regs[i].1 out[i] ∧ Fits b.ac out[i])
    (hfuel : ∀ x ∈ b :: bs, ∀ ws, x.ranges = some ws → ws.length < fuel) (hfuel' : regs.length < fuel) :
    resolveReg fuel (regs.map (fun r => rowCells [b.ac, b.sc] [r.1, r.2])).flatten ancestors =
      some (.ok (List.zipWith (fun (r : Nat × Nat) a => rowCells [b.ac, b.sc] [a, r.2]) regs out).flatten) := by
  obtain ⟨buses, h1, h2, h3⟩ := resolveTranslations_spec htab fuel hfuel
  simp only [resolveReg, hraw, h1, xlatRegs]
  cases buses with
  | nil => simp at h3
  | cons bb bbs =>
    simp only [List.map_cons, List.cons.injEq, Prod.mk.injEq] at h3
    simp only []
    rw [h3.1.1, h3.1.2]
    apply xlatLoop_ok b.ac b.sc _ hpos regs out fuel hfuel' hfit hlen
    intro i hi hi'
    obtain ⟨r1, r2⟩ := hroute i hi hi'
    refine ⟨?_, r2⟩
    rw [xlatReg_route, h2]
    exact r1

/-- C28: a device whose register lies partly in a window, or whose translated address cannot be
written, is rejected. -/
theorem reg_rejected (ancestors : List (List Property)) (b : RawBus) (bs : List RawBus)
    (tables : List (Option (List Window))) (regs : List (Nat × Nat)) (fuel : Nat)
    (hraw : resolveBuses ancestors = .ok (b :: bs)) (htab : EncodesAll (b :: bs) tables)
    (hpos : 0 < b.ac + b.sc)
    (hfit : ∀ r ∈ regs, Fits b.ac r.1 ∧ Fits b.sc r.2)
    (hbad : ∃ r ∈ regs, ∀ o, Route r.2 tables r.1 o → ¬ Fits b.ac o)
    (hfuel : ∀ x ∈ b :: bs, ∀ ws, x.ranges = some ws → ws.length < fuel) (hfuel' : regs.length < fuel) :
    ∃ e, resolveReg fuel (regs.map (fun r => rowCells [b.ac, b.sc] [r.1, r.2])).flatten ancestors =
      some (.error e) := by
  obtain ⟨buses, h1, h2, h3⟩ := resolveTranslations_spec htab fuel hfuel
  simp only [resolveReg, hraw, h1, xlatRegs]
  cases buses with
  | nil => simp at h3
  | cons bb bbs =>
    simp only [List.map_cons, List.cons.injEq, Prod.mk.injEq] at h3
    simp only []
    rw [h3.1.1, h3.1.2]
    apply xlatLoop_error b.ac b.sc _ hpos regs fuel hfuel' hfit
    obtain ⟨r, hr, hb⟩ := hbad
    refine ⟨r, hr, ?_⟩
    intro o ho
    apply hb o
    rw [← h2, ← xlatReg_route]
    exact ho

theorem root_ranges_error (fuel : Nat) (last : RawBus) (ws : List Nat) (hr : last.ranges = some ws) :
    ∀ (front : List RawBus) (out : List Bus), resolveTranslations fuel (front ++ [last]) ≠ some (.ok out) := by
  intro front
  induction front with
  | nil => intro out h; simp [resolveTranslations, hr] at h
  | cons b front ih =>
    intro out h
    have key : ∀ g : List Bus → List Bus, (resolveTranslations fuel (front ++ [last])).map (Except.map g) ≠ some (.ok out) := by
      intro g hg
      cases hres : resolveTranslations fuel (front ++ [last]) with
      | none => rw [hres] at hg; cases hg
      | some r =>
        rw [hres] at hg
        cases r with
        | error e => cases hg
        | ok o => exact ih o hres
    rw [List.cons_append, resolveTranslations.eq_def] at h
    simp only at h
    split at h
    · exact key _ h
    · split at h
      · cases h
      · split at h
        · cases h
        · exact key _ h

/-- C28: a `ranges` property of the root, which has no parent to translate to, is rejected. -/
theorem root_ranges_rejected (fuel : Nat) (reg : List Nat) (ancestors : List (List Property)) (front : List RawBus)
    (last : RawBus) (ws : List Nat) (hraw : resolveBuses ancestors = .ok (front ++ [last]))
    (hr : last.ranges = some ws) (out : List Nat) : resolveReg fuel reg ancestors ≠ some (.ok out) := by
  unfold resolveReg
  rw [hraw]
  simp only
  intro h
  split at h
  · cases h
  · cases h
  · rename_i buses hb; exact root_ranges_error fuel last ws hr front buses hb

/-- The hypotheses of `root_ranges_rejected` can be met. -/
example : resolveBuses [[("ranges", [])], [("ranges", [0, 0, 0x100])]] =
    .ok ([⟨2, 1, some []⟩] ++ [⟨2, 1, some [0, 0, 0x100]⟩]) := by rfl

/-! ### A concrete case: a device on a bus behind another bus -/

def demoAncestors : List (List Property) :=
  [ [("#address-cells", [1]), ("#size-cells", [1]), ("ranges", [0x0, 0x1000, 0x100, 0x100, 0x8000, 0x100])],
    [("#address-cells", [1]), ("#size-cells", [1]), ("ranges", [0x8000, 0x0, 0x90000, 0x1000])],
    [("#address-cells", [2]), ("#size-cells", [2])] ]

def demoRaw : List RawBus :=
  [⟨1, 1, some [0x0, 0x1000, 0x100, 0x100, 0x8000, 0x100]⟩, ⟨1, 1, some [0x8000, 0x0, 0x90000, 0x1000]⟩, ⟨2, 2, none⟩]

def demoTables : List (Option (List Window)) :=
  [some [⟨0, 0x1000, 0x100⟩, ⟨0x100, 0x8000, 0x100⟩], some [⟨0x8000, 0x90000, 0x1000⟩], none]

theorem demo_raw : resolveBuses demoAncestors = .ok demoRaw := by rfl

theorem demo_encodes : EncodesAll demoRaw demoTables := by
  refine .cons _ _ _ _ _ ⟨by decide, ?_, by decide⟩ (.cons _ _ _ _ _ ⟨by decide, ?_, by decide⟩ (.root _ rfl))
  · intro w hw
    simp only [List.mem_cons, List.not_mem_nil, or_false] at hw
    rcases hw with rfl | rfl <;> simp [RowFits, Fits]
  · intro w hw
    simp only [List.mem_cons, List.not_mem_nil, or_false] at hw
    rcases hw with rfl
    simp [RowFits, Fits]

theorem demo_route : Route 0x10 demoTables 0x120 0x90020 := by
  refine .ranges _ _ _ 0x8020 _ ?_ (.ranges _ _ _ 0x90020 _ ?_ (.plain _ _ _ (.root _)))
  · exact .inside 0x120 [⟨0, 0x1000, 0x100⟩] ⟨0x100, 0x8000, 0x100⟩ [] rfl (by simp [Window.Contains])
      (by simp [Window.Contains]) (by simp)
  · exact .inside 0x8020 [] ⟨0x8000, 0x90000, 0x1000⟩ [] rfl (by simp) (by simp [Window.Contains]) (by simp)

/-- The hypotheses of `reg_translated` can be met. -/
example : resolveReg 20 [0x120, 0x10] demoAncestors = some (.ok [0x90020, 0x10]) := by
  have := reg_translated demoAncestors _ _ demoTables [(0x120, 0x10)] [0x90020] 20 demo_raw demo_encodes (by decide)
    (by simp [Fits]) rfl (by
      intro i hi hi'
      have : i = 0 := by simpa using hi
      subst this
      exact ⟨demo_route, by simp [Fits]⟩)
    (by intro x hx ws hw; simp only [List.mem_cons, List.not_mem_nil, or_false] at hx
        rcases hx with rfl | rfl | rfl <;> simp at hw <;> subst hw <;> simp)
    (by simp)
  exact this

/-- The hypotheses of `reg_rejected` can be met: a register that sticks out of its window. -/
example : ∃ e, resolveReg 20 [0x1f8, 0x10] demoAncestors = some (.error e) := ⟨_, rfl⟩

end Verif.Fdt
