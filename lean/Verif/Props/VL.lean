import Verif.Model.VL
import Mathlib.Data.List.Basic

/-!
# C31: variable-length values read back as written
-/

namespace Cyclus.VL

/-! ## Specification -/

/-- A `std::less` for each type: two values are equal or one comes before the other. -/
def Order : Type := {lt : (t : Ty) → Val t → Val t → Prop // ∀ t x y, x = y ∨ lt t x y ∨ lt t y x}

/-- The value can occur: sets and the keys of maps are in increasing order. -/
def Valid (o : Order) : (t : Ty) → Val t → Prop
  | .fixed _, _ => True
  | .str, _ => True
  | .pair a b, x => Valid o a x.1 ∧ Valid o b x.2
  | .seq a, x => ∀ y ∈ (x : List (Val a)), Valid o a y
  | .set a, x => List.Pairwise (o.1 a) x ∧ ∀ y ∈ (x : List (Val a)), Valid o a y
  | .map k v, x => List.Pairwise (o.1 k) ((x : List (Val k × Val v)).map Prod.fst) ∧
      ∀ y ∈ (x : List (Val k × Val v)), Valid o k y.1 ∧ Valid o v y.2

/-- Different values are hashed as different messages. -/
def Distinct (o : Order) (t : Ty) : Prop :=
  ∀ x y, Valid o t x → Valid o t y → enc t x = enc t y → x = y

/-- The number of bytes of every value, if it is the same for all. -/
def width : Ty → Option ℕ
  | .fixed w => some w
  | .pair a b => do return (← width a) + (← width b)
  | _ => none

/-- At most one component of variable length, at the end. -/
def good : Ty → Bool
  | .fixed _ => true
  | .str => true
  | .pair a b => (width a).isSome && good b
  | .seq a => match width a with | some (_ + 1) => true | _ => false
  | .set a => match width a with | some (_ + 1) => true | _ => false
  | .map k v => match width (.pair k v) with | some (_ + 1) => true | _ => false

/-! ## Proof -/

theorem width_pair {a b : Ty} {w : ℕ} (h : width (.pair a b) = some w) :
    ∃ u v, width a = some u ∧ width b = some v ∧ w = u + v := by
  unfold width at h
  cases ha : width a with
  | none => simp [ha] at h
  | some u => cases hb : width b with
    | none => simp [ha, hb] at h
    | some v => simp [ha, hb] at h; exact ⟨u, v, rfl, rfl, h.symm⟩

theorem width_length {t : Ty} {w : ℕ} (h : width t = some w) (x : Val t) : (enc t x).length = w := by
  induction t generalizing w with
  | fixed n => simp only [width, Option.some.injEq] at h; subst h; exact x.2
  | pair a b iha ihb =>
    obtain ⟨u, v, hu, hv, rfl⟩ := width_pair h
    simp only [enc, List.length_append, iha hu, ihb hv]
  | str => simp [width] at h
  | seq => simp [width] at h
  | set => simp [width] at h
  | map => simp [width] at h

theorem width_inj {t : Ty} {w : ℕ} (h : width t = some w) {x y : Val t} (he : enc t x = enc t y) :
    x = y := by
  induction t generalizing w with
  | fixed n => exact Subtype.ext he
  | pair a b iha ihb =>
    obtain ⟨u, v, hu, hv, rfl⟩ := width_pair h
    simp only [enc] at he
    obtain ⟨h1, h2⟩ := List.append_inj he (by rw [width_length hu, width_length hu])
    exact Prod.ext (iha hu h1) (ihb hv h2)
  | str => simp [width] at h
  | seq => simp [width] at h
  | set => simp [width] at h
  | map => simp [width] at h

theorem flatten_inj {α : Type} {f : α → List Byte} {n : ℕ} (hl : ∀ x, (f x).length = n + 1)
    (hi : ∀ x y, f x = f y → x = y) {xs ys : List α}
    (h : (xs.map f).flatten = (ys.map f).flatten) : xs = ys := by
  induction xs generalizing ys with
  | nil =>
    cases ys with
    | nil => rfl
    | cons y ys =>
      have := congrArg List.length h
      simp only [List.map_nil, List.flatten_nil, List.length_nil, List.map_cons, List.flatten_cons,
        List.length_append, hl] at this
      omega
  | cons x xs ih =>
    cases ys with
    | nil =>
      have := congrArg List.length h
      simp only [List.map_nil, List.flatten_nil, List.length_nil, List.map_cons, List.flatten_cons,
        List.length_append, hl] at this
      omega
    | cons y ys =>
      simp only [List.map_cons, List.flatten_cons] at h
      obtain ⟨h1, h2⟩ := List.append_inj h (by rw [hl, hl])
      rw [hi x y h1, ih h2]

/-- Types with at most one variable-length component, at the end, are hashed without collisions. -/
theorem C31_distinct {t : Ty} (h : good t = true) {x y : Val t} (he : enc t x = enc t y) : x = y := by
  induction t with
  | fixed n => exact Subtype.ext he
  | str => exact he
  | pair a b _ ihb =>
    simp only [good, Bool.and_eq_true] at h
    obtain ⟨u, hu⟩ := Option.isSome_iff_exists.1 h.1
    simp only [enc] at he
    obtain ⟨h1, h2⟩ := List.append_inj he (by rw [width_length hu, width_length hu])
    exact Prod.ext (width_inj hu h1) (ihb h.2 h2)
  | seq a _ =>
    cases hw : width a with
    | none => simp [good, hw] at h
    | some w => cases w with
      | zero => simp [good, hw] at h
      | succ n => exact flatten_inj (width_length hw) (fun _ _ => width_inj hw) he
  | set a _ =>
    cases hw : width a with
    | none => simp [good, hw] at h
    | some w => cases w with
      | zero => simp [good, hw] at h
      | succ n => exact flatten_inj (width_length hw) (fun _ _ => width_inj hw) he
  | map k v _ _ =>
    cases hw : width (.pair k v) with
    | none => simp [good, hw] at h
    | some w => cases w with
      | zero => simp [good, hw] at h
      | succ n =>
        exact flatten_inj (f := enc (.pair k v)) (width_length hw)
          (fun _ _ => width_inj (t := .pair k v) hw) he

/-- The state of the store after writing the values `ws`. -/
structure Stored {K V : Type} (H : List Byte → K) (msg : V → List Byte) (put : V → V) (s : Store K V)
    (ws : List V) : Prop where
  keys : ∀ k, k ∈ s.keys ↔ ∃ x ∈ ws, H (msg x) = k
  vals : ∀ k ∈ s.keys, ∃ x ∈ ws, H (msg x) = k ∧ s.vals k = some (put x)

theorem Stored.write {K V : Type} [DecidableEq K] {H : List Byte → K} {msg : V → List Byte}
    {put : V → V} {s : Store K V} {ws : List V} (h : Stored H msg put s ws) (x : V) :
    Stored H msg put (s.write H msg put x).2 (ws ++ [x]) := by
  unfold Store.write
  simp only
  by_cases hk : H (msg x) ∈ s.keys
  · rw [if_pos hk]
    refine ⟨fun k => ?_, fun k hk' => ?_⟩
    · rw [h.keys]
      constructor
      · rintro ⟨y, hy, e⟩; exact ⟨y, by simp [hy], e⟩
      · rintro ⟨y, hy, e⟩
        rcases List.mem_append.1 hy with hy | hy
        · exact ⟨y, hy, e⟩
        · rw [List.mem_singleton] at hy; subst hy; rw [← e]; exact (h.keys _).1 hk
    · obtain ⟨y, hy, e⟩ := h.vals k hk'
      exact ⟨y, by simp [hy], e⟩
  · rw [if_neg hk]
    refine ⟨fun k => ?_, fun k hk' => ?_⟩
    · simp only [List.mem_append, List.mem_singleton, h.keys]
      constructor
      · rintro (⟨y, hy, e⟩ | rfl)
        · exact ⟨y, Or.inl hy, e⟩
        · exact ⟨x, Or.inr rfl, rfl⟩
      · rintro ⟨y, hy | rfl, e⟩
        · exact Or.inl ⟨y, hy, e⟩
        · exact Or.inr e.symm
    · by_cases he : k = H (msg x)
      · subst he; exact ⟨x, by simp, rfl, by simp⟩
      · have hk2 : k ∈ s.keys := by
          rcases List.mem_append.1 hk' with h | h
          · exact h
          · exact absurd (List.mem_singleton.1 h) he
        obtain ⟨y, hy, e, e2⟩ := h.vals k hk2
        exact ⟨y, by simp [hy], e, by simp only [Function.update_of_ne he]; exact e2⟩

theorem Stored.writes {K V : Type} [DecidableEq K] {H : List Byte → K} {msg : V → List Byte}
    {put : V → V} {s : Store K V} {ws : List V} (h : Stored H msg put s ws) (xs : List V) :
    Stored H msg put (s.writes H msg put xs) (ws ++ xs) := by
  induction xs generalizing s ws with
  | nil => simpa [Store.writes] using h
  | cons x xs ih => have := ih (h.write x); simpa [Store.writes] using this

/-- **C31** for collision-free types: with an injective hash, after any writes the cell at the digest of
every written value contains the value. -/
theorem C31_read_partial {K : Type} [DecidableEq K] {H : List Byte → K} (hH : Function.Injective H)
    {t : Ty} (h : good t = true) (put : Val t → Val t) {ws : List (Val t)} {x : Val t} (hx : x ∈ ws) :
    (Store.empty.writes H (enc t) put ws).read (H (enc t x)) = some (put x) := by
  have hs : Stored H (enc t) put (Store.empty.writes H (enc t) put ws) ws := by
    have := Stored.writes (H := H) (msg := enc t) (put := put) (s := Store.empty) (ws := [])
      ⟨by simp [Store.empty], by simp [Store.empty]⟩ ws
    simpa using this
  obtain ⟨y, _, hy, hv⟩ := hs.vals _ ((hs.keys _).2 ⟨x, hx, rfl⟩)
  have := C31_distinct h (hH hy)
  subst this
  exact hv

theorem cstr_self {x : List Byte} (h0 : (0 : Byte) ∉ x) : cstr x = x := by
  unfold cstr
  induction x with
  | nil => rfl
  | cons b x ih =>
    simp only [List.mem_cons, not_or] at h0
    rw [List.takeWhile_cons, if_pos (by simpa using Ne.symm h0.1), ih h0.2]

/-- Strings and blobs without NUL are read back as written. -/
theorem C31_string_partial {K : Type} [DecidableEq K] {H : List Byte → K}
    (hH : Function.Injective H) {ws : List (Val .str)} {x : List Byte} (hx : x ∈ (ws : List (List Byte)))
    (h0 : (0 : Byte) ∉ x) :
    (Store.empty.writes H (enc .str) cstr ws).read (H (enc .str x)) = some x := by
  rw [C31_read_partial (t := .str) hH rfl cstr (x := x) hx]
  congr 1
  exact cstr_self h0

/-! ## Disagreements -/

/-- Two different values that can occur are hashed as the same message. -/
def Collides (o : Order) (t : Ty) : Prop :=
  ∃ x y, Valid o t x ∧ Valid o t y ∧ x ≠ y ∧ enc t x = enc t y

/-- A value of every type. -/
def zero : (t : Ty) → Val t
  | .fixed w => ⟨List.replicate w 0, by simp⟩
  | .str => ([] : List Byte)
  | .pair a b => (zero a, zero b)
  | .seq a => ([] : List (Val a))
  | .set a => ([] : List (Val a))
  | .map k v => ([] : List (Val k × Val v))

theorem zero_valid (o : Order) (t : Ty) : Valid o t (zero t) := by
  induction t with
  | pair a b iha ihb => exact ⟨iha, ihb⟩
  | _ => simp [Valid, zero]

theorem Collides.seq {o : Order} {t : Ty} (h : Collides o t) : Collides o (.seq t) := by
  obtain ⟨x, y, hx, hy, hn, he⟩ := h
  exact ⟨[x], [y], by simpa [Valid] using hx, by simpa [Valid] using hy, by simpa using hn,
    by simp [enc, he]⟩

theorem Collides.map {o : Order} {k v : Ty} (h : Collides o (.pair k v)) : Collides o (.map k v) := by
  obtain ⟨x, y, hx, hy, hn, he⟩ := h
  exact ⟨[x], [y], by simpa [Valid] using hx, by simpa [Valid] using hy, by simpa using hn,
    by simpa [enc] using he⟩

theorem Collides.right {o : Order} {a b : Ty} (h : Collides o b) : Collides o (.pair a b) := by
  obtain ⟨x, y, hx, hy, hn, he⟩ := h
  refine ⟨(zero a, x), (zero a, y), ⟨zero_valid o a, hx⟩, ⟨zero_valid o a, hy⟩, ?_, by simp [enc, he]⟩
  intro e; exact hn (congrArg Prod.snd e)

theorem Collides.left {o : Order} {a b : Ty} (h : Collides o a) : Collides o (.pair a b) := by
  obtain ⟨x, y, hx, hy, hn, he⟩ := h
  refine ⟨(x, zero b), (y, zero b), ⟨hx, zero_valid o b⟩, ⟨hy, zero_valid o b⟩, ?_, by simp [enc, he]⟩
  intro e; exact hn (congrArg Prod.fst e)

/-- A type with an empty and a non-empty message. -/
theorem collides_str {o : Order} {b : Ty} {x y : Val b} (hx : Valid o b x) (hy : Valid o b y)
    (hxe : enc b x = []) (hye : enc b y ≠ []) : Collides o (.pair .str b) := by
  refine ⟨(enc b y, x), (([] : List Byte), y), ⟨trivial, hx⟩, ⟨trivial, hy⟩, ?_, by simp [enc, hxe]⟩
  intro e; exact hye (congrArg Prod.fst e)

theorem collides_seq_str (o : Order) : Collides o (.seq .str) :=
  ⟨([] : List (List Byte)), [([] : List Byte)], by simp [Valid], by simp [Valid], by simp, by simp [enc]⟩

theorem collides_set_str (o : Order) : Collides o (.set .str) :=
  ⟨([] : List (List Byte)), [([] : List Byte)], by simp [Valid], by simp [Valid], by simp, by simp [enc]⟩

/-- A string as the value of a map: the next entry may be part of the string. -/
theorem collides_map_to_str {o : Order} {k : Ty} {a b : Val k} (ha : Valid o k a) (hb : Valid o k b)
    (hab : a ≠ b) : Collides o (.map k .str) := by
  have key : ∀ a b : Val k, Valid o k a → Valid o k b → o.1 k a b → Collides o (.map k .str) := by
    intro a b ha hb hlt
    refine ⟨[(a, ([] : List Byte)), (b, ([] : List Byte))], [(a, enc k b)], ?_, ?_, ?_, ?_⟩
    · simp [Valid, ha, hb, hlt]
    · simp [Valid, ha]
    · intro e; have := congrArg List.length e; simp at this
    · simp [enc]
  rcases o.2 k a b with h | h | h
  · exact absurd h hab
  · exact key a b ha hb h
  · exact key b a hb ha h

/-- A string at the end of the key of a map with any values: the value and the next key may be part of
the string. -/
theorem collides_map_from_str {o : Order} {v : Ty} : Collides o (.map .str v) := by
  have key : ∀ a b : List Byte, o.1 .str a b → Collides o (.map .str v) := by
    intro a b hlt
    have hz := zero_valid o v
    refine ⟨[(a, zero v), (b, zero v)], [((a ++ enc v (zero v) ++ b : List Byte), zero v)], ?_, ?_, ?_, ?_⟩
    · simp only [Valid, List.map_cons, List.map_nil, List.pairwise_cons, List.mem_cons,
        List.not_mem_nil, or_false, forall_eq, forall_eq_or_imp]
      exact ⟨⟨hlt, by simp⟩, ⟨trivial, hz⟩, trivial, hz⟩
    · simp only [Valid, List.map_cons, List.map_nil, List.mem_cons,
        List.not_mem_nil, or_false, forall_eq]
      exact ⟨by simp, trivial, hz⟩
    · intro e; have := congrArg List.length e; simp at this
    · simp [enc]
  rcases o.2 .str ([] : List Byte) ([0] : List Byte) with h | h | h
  · exact absurd h (by intro e; exact absurd (congrArg List.length e) (by simp))
  · exact key _ _ h
  · exact key _ _ h

/-- A pair with a string as the key. -/
theorem collides_map_pair_str {o : Order} {k v : Ty} : Collides o (.map (.pair k .str) v) := by
  have hk := zero_valid o k
  have hz := zero_valid o v
  have key : ∀ a b : List Byte, o.1 (.pair k .str) (zero k, a) (zero k, b) →
      Collides o (.map (.pair k .str) v) := by
    intro a b hlt
    refine ⟨[((zero k, a), zero v), ((zero k, b), zero v)],
      [((zero k, (a ++ enc v (zero v) ++ enc k (zero k) ++ b : List Byte)), zero v)], ?_, ?_, ?_, ?_⟩
    · simp only [Valid, List.map_cons, List.map_nil, List.pairwise_cons, List.mem_cons,
        List.not_mem_nil, or_false, forall_eq, forall_eq_or_imp]
      exact ⟨⟨hlt, by simp⟩, ⟨⟨hk, trivial⟩, hz⟩, ⟨hk, trivial⟩, hz⟩
    · simp only [Valid, List.map_cons, List.map_nil, List.mem_cons,
        List.not_mem_nil, or_false, forall_eq]
      exact ⟨by simp, ⟨hk, trivial⟩, hz⟩
    · intro e; have := congrArg List.length e; simp at this
    · simp [enc]
  rcases o.2 (.pair k .str) (zero k, ([] : List Byte)) (zero k, ([0] : List Byte)) with h | h | h
  · exact absurd h (by
      intro e; have := congrArg (fun p : Val k × List Byte => p.2.length) e; simp at this)
  · exact key _ _ h
  · exact key _ _ h

theorem collides_pair_str_str (o : Order) : Collides o (.pair .str .str) :=
  collides_str (b := .str) (x := ([] : List Byte)) (y := ([0] : List Byte)) trivial trivial rfl
    (by simp [enc])

theorem collides_pair_str_seq (o : Order) : Collides o (.pair .str (.seq dbl)) :=
  collides_str (b := .seq dbl) (x := ([] : List (Val dbl))) (y := [zero dbl]) (by simp [Valid])
    (by simp [Valid]) rfl (by simp [enc, zero])

/-- The types of the overloads of `Sha1::Update` that are hashed without collisions are exactly those
with at most one variable-length component, at the end; 22 of the 40 have collisions, whatever the order
of the elements in sets and maps. -/
theorem C31_classified (o : Order) : ∀ t ∈ overloads, Distinct o t ↔ good t = true := by
  have neg : ∀ {t : Ty}, Collides o t → good t = false → (Distinct o t ↔ good t = true) := by
    rintro t ⟨x, y, hx, hy, hn, he⟩ hg
    rw [hg]
    exact ⟨fun h => absurd (h x y hx hy he) hn, by simp⟩
  have pos : ∀ {t : Ty}, good t = true → (Distinct o t ↔ good t = true) :=
    fun {t} hg => ⟨fun _ => hg, fun _ x y _ _ he => C31_distinct hg he⟩
  have hint : (zero int) ≠ (⟨[1, 0, 0, 0], rfl⟩ : Val int) := by
    intro e; exact absurd (congrArg Subtype.val e) (by decide)
  intro t ht
  simp only [overloads, List.mem_cons, List.not_mem_nil, or_false] at ht
  rcases ht with rfl | rfl | rfl | rfl | rfl | rfl | rfl | rfl | rfl | rfl | rfl | rfl | rfl | rfl |
    rfl | rfl | rfl | rfl | rfl | rfl | rfl | rfl | rfl | rfl | rfl | rfl | rfl | rfl | rfl | rfl |
    rfl | rfl | rfl | rfl | rfl | rfl | rfl | rfl | rfl | rfl
  all_goals first
    | exact pos rfl
    | exact neg (collides_seq_str o) rfl
    | exact neg (collides_set_str o) rfl
    | exact neg (collides_map_to_str (zero_valid o _) (b := ⟨[1, 0, 0, 0], rfl⟩) trivial hint) rfl
    | exact neg collides_map_from_str rfl
    | exact neg collides_map_pair_str rfl
    | exact neg (Collides.map (Collides.right collides_map_from_str)) rfl
    | exact neg (Collides.right (collides_pair_str_str o)) rfl
    | exact neg (Collides.seq (Collides.right (collides_pair_str_str o))) rfl
    | exact neg (collides_pair_str_seq o) rfl
    | exact neg (Collides.right collides_map_from_str) rfl
    | exact neg (Collides.seq (Collides.right collides_map_from_str)) rfl

/-- Of the 40 overloads, 18 have the injective digest of `C31_overload`. -/
theorem C31_count : overloads.length = 40 ∧ (overloads.filter good).length = 18 := by decide

/-- Whatever the hash: if two different values of a type collide, one of them is lost when both are
written. -/
theorem C31_fails {o : Order} {K : Type} [DecidableEq K] (H : List Byte → K) {t : Ty}
    (h : Collides o t) : ∃ x y, Valid o t x ∧ Valid o t y ∧ x ≠ y ∧
      (Store.empty.writes H (enc t) id [x, y]).read (H (enc t y)) = some x := by
  obtain ⟨x, y, hx, hy, hn, he⟩ := h
  refine ⟨x, y, hx, hy, hn, ?_⟩
  simp [Store.writes, Store.write, Store.empty, Store.read, he]

/-- In particular lists of strings. -/
theorem C31_fails_strings {K : Type} [DecidableEq K] (H : List Byte → K) :
    ((Store.empty : Store K (Val (.seq .str))).writes H (enc (.seq .str)) id
      [[([97, 98] : List Byte), ([99] : List Byte)], [([97] : List Byte), ([98, 99] : List Byte)]]).read
      (H (enc (.seq .str) [([97] : List Byte), ([98, 99] : List Byte)])) =
      some [([97, 98] : List Byte), ([99] : List Byte)] := by
  have e : enc (.seq .str) [([97, 98] : List Byte), ([99] : List Byte)] =
      enc (.seq .str) [([97] : List Byte), ([98, 99] : List Byte)] := rfl
  simp [Store.writes, Store.write, Store.empty, Store.read, e]

/-- A string that contains a NUL is cut there. -/
theorem C31_fails_nul {K : Type} [DecidableEq K] {H : List Byte → K} (hH : Function.Injective H) :
    (Store.empty.writes H (enc .str) cstr [([97, 0, 98] : List Byte)]).read
      (H (enc .str ([97, 0, 98] : List Byte))) = some ([97] : List Byte) := by
  rw [C31_read_partial (t := .str) hH rfl cstr (x := ([97, 0, 98] : List Byte))
    (List.mem_singleton.2 rfl)]
  rfl

/-- The overload that hashes the memory of the key: equal maps may be stored under different keys, and
different maps with the same values and keys of the same length under the same key. -/
theorem C31_fails_memory (v : Val (.pair dbl (.map int dbl))) :
    (∃ m, updateRaw 32 [(([97], [1]), v)] ≠ updateRaw 32 [(([97], m), v)]) ∧
    updateRaw 32 [(([97], [1]), v)] = updateRaw 32 [(([98], [1]), v)] ∧
    ∀ key mem, 32 < key.length → updateRaw 32 [((key, mem), v)] = none :=
  ⟨⟨[2], by simp [updateRaw]⟩, by simp [updateRaw], fun key mem h => by simp [updateRaw, h]⟩

/-! ## Examples -/

/-- An order. -/
def someOrder : Order := ⟨fun _ x y => x ≠ y, fun t x y => by
  by_cases h : x = y
  · exact Or.inl h
  · exact Or.inr (Or.inl h)⟩

-- C31_read_partial, C31_string_partial: writing two strings, one of them twice
example : (Store.empty.writes id (enc .str) cstr
    [([97] : List Byte), ([98, 99] : List Byte), ([97] : List Byte)]).read [97] =
    some ([97] : List Byte) ∧ good (.map int dbl) = true ∧ good .str = true :=
  ⟨C31_string_partial Function.injective_id (x := [97]) (by simp) (by decide), rfl, rfl⟩

-- C31_fails: a collision
example : Collides someOrder (.map .str .str) := collides_map_from_str

end Cyclus.VL
