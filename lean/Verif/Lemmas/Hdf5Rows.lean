import Verif.Spec.Hdf5Rows
import Mathlib.Data.List.Basic
import Mathlib.Data.List.Forall2
import Mathlib.Algebra.BigOperators.Group.List.Basic
import Mathlib.Tactic.Ring
import Mathlib.Tactic.Linarith

/-!
# Lemmas about rows of HDF5 tables
-/

namespace Cyclus.Hdf5Rows

/-! ## Buffers -/

theorem poke_mid (pre old post bs : List ℕ) (h : bs.length = old.length) :
    poke (pre ++ old ++ post) pre.length bs = some (pre ++ bs ++ post) := by
  unfold poke
  rw [if_pos (by simp; omega), h]
  congr 1
  simp [List.append_assoc]

theorem poke_append (buf : List ℕ) (off : ℕ) (a b : List ℕ) :
    poke buf off (a ++ b) = (poke buf off a).bind fun c => poke c (off + a.length) b := by
  unfold poke
  by_cases h1 : off + a.length ≤ buf.length
  · rw [if_pos h1]
    simp only [Option.bind_some, List.length_append, List.length_take, List.length_drop]
    by_cases h2 : off + a.length + b.length ≤ buf.length
    · rw [if_pos (by omega), if_pos (by omega)]
      congr 1
      have e1 : (List.take off buf ++ a).length = off + a.length := by simp; omega
      have e2 : List.take (off + a.length) (List.take off buf ++ a ++ List.drop (off + a.length) buf)
          = List.take off buf ++ a := List.take_left' e1
      have e3 : List.drop (off + a.length + b.length) (List.take off buf ++ a ++ List.drop (off + a.length) buf)
          = List.drop (off + (a.length + b.length)) buf := by
        rw [← List.drop_drop, List.drop_left' e1, List.drop_drop, Nat.add_assoc]
      rw [e2, e3]
      simp only [List.append_assoc]
    · rw [if_neg (by omega), if_neg (by omega)]
  · rw [if_neg h1, if_neg (by simp; omega)]
    rfl

theorem poke_nil (buf : List ℕ) (off : ℕ) (h : off ≤ buf.length) : poke buf off [] = some buf := by
  unfold poke
  rw [if_pos (by simpa using h)]
  simp

theorem poke_length {buf b bs : List ℕ} {off : ℕ} (h : poke buf off bs = some b) :
    b.length = buf.length ∧ off + bs.length ≤ buf.length := by
  unfold poke at h
  by_cases h1 : off + bs.length ≤ buf.length
  · rw [if_pos h1] at h
    cases h
    constructor
    · simp; omega
    · exact h1
  · rw [if_neg h1] at h; cases h

theorem zeros_eq (buf : List ℕ) (off total n count : ℕ) (hc : count ≤ n) (hn : total * n < 2 ^ 64) :
    zeros buf off total n count = poke buf off (List.replicate (total * (n - count)) 0) := by
  have hle : total * (n - count) ≤ total * n := Nat.mul_le_mul_left _ (by omega)
  have : (((total : ℤ) * ((n : ℤ) - (count : ℤ))) % 2 ^ 64).toNat = total * (n - count) := by
    have e : (total : ℤ) * ((n : ℤ) - (count : ℤ)) = ((total * (n - count) : ℕ) : ℤ) := by
      push_cast [Nat.cast_sub hc]; ring
    rw [e, Int.emod_eq_of_lt (by positivity) (by exact_mod_cast lt_of_le_of_lt hle hn)]
    exact Int.toNat_natCast _
  unfold zeros
  simp only [this]
  by_cases h : off + total * (n - count) ≤ buf.length
  · rw [if_pos h]
  · rw [if_neg h]
    unfold poke
    rw [if_neg (by simpa using h)]

theorem peek_mid (pre bs post : List ℕ) : peek (pre ++ bs ++ post) pre.length bs.length = some bs := by
  unfold peek
  rw [if_pos (by simp)]
  congr 1
  simp [List.append_assoc]

/-! ## Loops -/

theorem wloop_flat {α : Type} (w : α → ℕ → List ℕ → Option (List ℕ)) (f : α → List ℕ) (sz off : ℕ) (l : List α)
    (hw : ∀ x ∈ l, (f x).length = sz ∧ ∀ o buf, w x o buf = poke buf o (f x)) :
    ∀ (k : ℕ) (buf : List ℕ), off + sz * k ≤ buf.length →
      wloop w sz off k l buf = poke buf (off + sz * k) (l.map f).flatten := by
  induction l with
  | nil =>
    intro k buf h
    simp only [wloop, List.map_nil, List.flatten_nil]
    rw [poke_nil _ _ h]
  | cons x xs ih =>
    intro k buf h
    obtain ⟨hx, hwx⟩ := hw x (by simp)
    simp only [wloop, List.map_cons, List.flatten_cons]
    rw [hwx, poke_append]
    cases hp : poke buf (off + sz * k) (f x) with
    | none => rfl
    | some b =>
      obtain ⟨hl, hb⟩ := poke_length hp
      simp only [Option.bind_some]
      rw [ih (fun y hy => hw y (by simp [hy])) (k + 1) b (by rw [hl, Nat.mul_succ]; omega)]
      rw [hx, Nat.mul_succ, Nat.add_assoc]

theorem rloop_flat {α : Type} (r : List ℕ → ℕ → Option α) (sz : ℕ) (l : List (List ℕ × α))
    (h : ∀ p ∈ l, p.1.length = sz ∧ ∀ pre post, r (pre ++ p.1 ++ post) pre.length = some p.2) :
    ∀ (pre post : List ℕ) (k off : ℕ), off + sz * k = pre.length →
      rloop (r (pre ++ (l.map (·.1)).flatten ++ post)) sz off l.length k = some (l.map (·.2)) := by
  induction l with
  | nil => intro pre post k off _; rfl
  | cons p ps ih =>
    intro pre post k off hk
    obtain ⟨hl, hr⟩ := h p (by simp)
    simp only [List.map_cons, List.flatten_cons, List.length_cons, rloop]
    have e1 : pre ++ (p.1 ++ (ps.map (·.1)).flatten) ++ post = pre ++ p.1 ++ ((ps.map (·.1)).flatten ++ post) := by
      simp [List.append_assoc]
    have e2 : pre ++ (p.1 ++ (ps.map (·.1)).flatten) ++ post = (pre ++ p.1) ++ (ps.map (·.1)).flatten ++ post := by
      simp [List.append_assoc]
    rw [hk]
    rw [e1, hr, ← e1]
    simp only [Option.bind_some]
    rw [e2, ih (fun q hq => h q (by simp [hq])) (pre ++ p.1) post (k + 1) off
      (by rw [Nat.mul_succ, List.length_append]; omega)]
    rfl

/-! ## Encoding -/

/-- The bytes of a value. -/
def enc (e : Env) : (t : Ty) → Val t → List ℕ
  | .prim _, v => v
  | .str n, v => v.take (min v.length n) ++ List.replicate (n - min v.length n) 0
  | .vl, v => e.digest v
  | .seq n c, v => (v.map (enc e c)).flatten ++ List.replicate (size c * (n - v.length)) 0
  | .set n c, v => (v.map (enc e c)).flatten ++ List.replicate (size c * (n - v.length)) 0
  | .map n a b, v =>
    (v.map fun p => enc e a p.1 ++ enc e b p.2).flatten ++ List.replicate ((size a + size b) * (n - v.length)) 0
  | .pair a b, v => enc e a v.1 ++ enc e b v.2

theorem length_flatten_const {α : Type} (l : List α) (f : α → List ℕ) (sz : ℕ) (h : ∀ x ∈ l, (f x).length = sz) :
    (l.map f).flatten.length = sz * l.length := by
  induction l with
  | nil => simp
  | cons x xs ih =>
    simp only [List.map_cons, List.flatten_cons, List.length_append, List.length_cons]
    rw [h x (by simp), ih (fun y hy => h y (by simp [hy]))]
    ring

theorem enc_length {e : Env} (g : Good e) : ∀ (t : Ty) (v : Val t), Within t v → (enc e t v).length = size t := by
  intro t
  induction t with
  | prim n => intro v h; exact h
  | str n => intro v _; simp [enc, size]
  | vl => intro v _; exact g.digest_length v
  | seq n c ih =>
    intro v h
    simp only [enc, size, List.length_append, List.length_replicate]
    rw [length_flatten_const _ _ (size c) (fun x hx => ih x (h.2 x hx)), ← Nat.mul_add]
    congr 1; have := h.1; omega
  | set n c ih =>
    intro v h
    simp only [enc, size, List.length_append, List.length_replicate]
    rw [length_flatten_const _ _ (size c) (fun x hx => ih x (h.2 x hx)), ← Nat.mul_add]
    congr 1; have := h.1; omega
  | map n a b iha ihb =>
    intro v h
    simp only [enc, size, List.length_append, List.length_replicate]
    rw [length_flatten_const _ _ (size a + size b)
      (fun p hp => by rw [List.length_append, iha _ (h.2 p hp).1, ihb _ (h.2 p hp).2]), ← Nat.mul_add]
    congr 1; have := h.1; omega
  | pair a b iha ihb =>
    intro v h
    simp only [enc, size, List.length_append]
    rw [iha _ h.1, ihb _ h.2]

theorem size_pos : ∀ t, Shaped t → 1 ≤ size t := by
  intro t
  induction t with
  | prim n => exact fun h => h
  | str n => exact fun h => h
  | vl => intro _; simp [size]
  | seq n c ih => intro h; exact Nat.mul_pos (ih h.2) h.1
  | set n c ih => intro h; exact Nat.mul_pos (ih h.2) h.1
  | map n a b iha ihb =>
    intro h
    have := iha h.2.1
    exact Nat.mul_pos (by omega) h.1
  | pair a b iha ihb => intro h; have := iha h.1; simp only [size]; omega

theorem poke_none {buf bs : List ℕ} {off : ℕ} (h : buf.length < off) : poke buf off bs = none := by
  unfold poke
  rw [if_neg (by omega)]

/-- A write of a container whose elements are written as bytes. -/
theorem write_cont {α : Type} (w : α → ℕ → List ℕ → Option (List ℕ)) (f : α → List ℕ) (sz n : ℕ) (v : List α)
    (hv : v.length ≤ n) (hs : sz * n < 2 ^ 64)
    (hw : ∀ x ∈ v, (f x).length = sz ∧ ∀ o buf, w x o buf = poke buf o (f x)) (off : ℕ) (buf : List ℕ) :
    ((wloop w sz off 0 v buf).bind fun b => zeros b (off + sz * v.length) sz n v.length)
      = poke buf off ((v.map f).flatten ++ List.replicate (sz * (n - v.length)) 0) := by
  by_cases hb : off ≤ buf.length
  · rw [wloop_flat w f sz off v hw 0 buf (by simpa using hb), Nat.mul_zero, Nat.add_zero, poke_append,
      length_flatten_const v f sz (fun x hx => (hw x hx).1)]
    congr 1
    funext b
    exact zeros_eq _ _ _ _ _ hv hs
  · rw [poke_none (by omega)]
    cases v with
    | nil =>
      simp only [wloop, Option.bind_some]
      rw [zeros_eq _ _ _ _ _ hv hs, poke_none (by simp; omega)]
    | cons x xs =>
      simp only [wloop]
      rw [(hw x (by simp)).2, poke_none (by omega)]
      rfl

theorem write_enc {e : Env} (g : Good e) :
    ∀ (t : Ty), Shaped t → size t < 2 ^ 64 → ∀ v : Val t, Within t v → ∀ off buf,
      write e t v off buf = poke buf off (enc e t v) := by
  intro t
  induction t with
  | prim n => intro _ _ v _ off buf; rfl
  | str n =>
    intro _ _ v _ off buf
    simp only [write, enc]
    rw [poke_append]
    simp
  | vl => intro _ _ v _ off buf; rfl
  | seq n c ih =>
    intro hs hz v h off buf
    have hc : size c < 2 ^ 64 := lt_of_le_of_lt (Nat.le_mul_of_pos_right _ hs.1) hz
    exact write_cont _ _ _ _ v h.1 hz (fun x hx => ⟨enc_length g c x (h.2 x hx), ih hs.2 hc x (h.2 x hx)⟩) off buf
  | set n c ih =>
    intro hs hz v h off buf
    have hc : size c < 2 ^ 64 := lt_of_le_of_lt (Nat.le_mul_of_pos_right _ hs.1) hz
    exact write_cont _ _ _ _ v h.1 hz (fun x hx => ⟨enc_length g c x (h.2 x hx), ih hs.2 hc x (h.2 x hx)⟩) off buf
  | map n a b iha ihb =>
    intro hs hz v h off buf
    have hab : size a + size b < 2 ^ 64 := lt_of_le_of_lt (Nat.le_mul_of_pos_right _ hs.1) hz
    refine write_cont _ _ _ _ v h.1 hz (fun p hp => ⟨?_, fun o bf => ?_⟩) off buf
    · rw [List.length_append, enc_length g a _ (h.2 p hp).1, enc_length g b _ (h.2 p hp).2]
    · rw [iha hs.2.1 (by omega) _ (h.2 p hp).1, poke_append, enc_length g a _ (h.2 p hp).1]
      congr 1
      funext bf'
      exact ihb hs.2.2 (by omega) _ (h.2 p hp).2 _ _
  | pair a b iha ihb =>
    intro hs hz v h off buf
    simp only [size] at hz
    simp only [write, enc]
    rw [iha hs.1 (by omega) _ h.1, poke_append, enc_length g a _ h.1]
    congr 1
    funext bf'
    exact ihb hs.2 (by omega) _ h.2 _ _

/-- Reading a container whose elements are bytes. -/
theorem rloop_cont {α β : Type} (r : List ℕ → ℕ → Option β) (sz : ℕ) (l : List α) (f : α → List ℕ) (q : α → β)
    (h : ∀ x ∈ l, (f x).length = sz ∧ ∀ pre post, r (pre ++ f x ++ post) pre.length = some (q x))
    (pre post : List ℕ) :
    rloop (r (pre ++ (l.map f).flatten ++ post)) sz pre.length l.length 0 = some (l.map q) := by
  have := rloop_flat r sz (l.map fun x => (f x, q x)) (by
    intro p hp
    obtain ⟨x, hx, rfl⟩ := List.mem_map.1 hp
    exact h x hx) pre post 0 pre.length (by simp)
  simpa [List.map_map, Function.comp_def] using this

theorem replicate_flatten (sz m : ℕ) :
    List.replicate (sz * m) 0 = ((List.replicate m ()).map fun _ => List.replicate sz (0 : ℕ)).flatten := by
  rw [List.map_replicate, List.flatten_replicate_replicate, Nat.mul_comm]

theorem read_zero (e : Env) : ∀ (t : Ty) (pre post : List ℕ),
    read e t (pre ++ List.replicate (size t) 0 ++ post) pre.length = some (zero e t) := by
  intro t
  induction t with
  | prim n =>
    intro pre post
    have := peek_mid pre (List.replicate n 0) post
    simpa [read, zero, size] using this
  | str n =>
    intro pre post
    have := peek_mid pre (List.replicate n 0) post
    rw [List.length_replicate] at this
    simp only [read, zero, size]
    rw [this]
    cases n <;> simp [List.replicate_succ]
  | vl =>
    intro pre post
    have := peek_mid pre (List.replicate 20 0) post
    rw [List.length_replicate] at this
    simp only [read, zero, size]
    rw [this]
    rfl
  | seq n c ih =>
    intro pre post
    simp only [read, zero, size]
    rw [replicate_flatten]
    have := rloop_cont (read e c) (size c) (List.replicate n ()) (fun _ => List.replicate (size c) 0)
      (fun _ => zero e c) (fun _ _ => ⟨by simp, ih⟩) pre post
    simpa using this
  | set n c ih =>
    intro pre post
    simp only [read, zero, size]
    rw [replicate_flatten]
    have := rloop_cont (read e c) (size c) (List.replicate n ()) (fun _ => List.replicate (size c) 0)
      (fun _ => zero e c) (fun _ _ => ⟨by simp, ih⟩) pre post
    rw [List.length_replicate, List.map_replicate, List.map_replicate] at this
    rw [List.map_replicate, this]
    rfl
  | map n a b iha ihb =>
    intro pre post
    simp only [read, zero, size]
    rw [replicate_flatten]
    have := rloop_cont (fun buf o => (read e a buf o).bind fun x => (read e b buf (o + size a)).map fun y => (x, y))
      (size a + size b) (List.replicate n ()) (fun _ => List.replicate (size a + size b) 0)
      (fun _ => (zero e a, zero e b)) (fun _ _ => ⟨by simp, by
        intro pre post
        have e1 : pre ++ List.replicate (size a + size b) 0 ++ post
            = pre ++ List.replicate (size a) 0 ++ (List.replicate (size b) 0 ++ post) := by
          rw [List.replicate_add]; simp only [List.append_assoc]
        have e2 : pre ++ List.replicate (size a) 0 ++ (List.replicate (size b) 0 ++ post)
            = (pre ++ List.replicate (size a) 0) ++ List.replicate (size b) 0 ++ post := by
          simp only [List.append_assoc]
        rw [e1, iha]
        simp only [Option.bind_some]
        have hb := ihb (pre ++ List.replicate (size a) 0) post
        rw [List.length_append, List.length_replicate] at hb
        rw [e2, hb]
        rfl⟩) pre post
    rw [List.length_replicate, List.map_replicate, List.map_replicate] at this
    rw [List.map_replicate, this]
    rfl
  | pair a b iha ihb =>
    intro pre post
    simp only [read, zero, size]
    have e1 : pre ++ List.replicate (size a + size b) 0 ++ post
        = pre ++ List.replicate (size a) 0 ++ (List.replicate (size b) 0 ++ post) := by
      rw [List.replicate_add]; simp only [List.append_assoc]
    have e2 : pre ++ List.replicate (size a) 0 ++ (List.replicate (size b) 0 ++ post)
        = (pre ++ List.replicate (size a) 0) ++ List.replicate (size b) 0 ++ post := by
      simp only [List.append_assoc]
    rw [e1, iha]
    simp only [Option.bind_some]
    have hb := ihb (pre ++ List.replicate (size a) 0) post
    rw [List.length_append, List.length_replicate] at hb
    rw [e2, hb]
    rfl

/-- Reading a container filled up with zeros. -/
theorem rloop_pad {α β : Type} (r : List ℕ → ℕ → Option β) (sz : ℕ) (l : List α) (f : α → List ℕ) (q : α → β)
    (z : β) (n : ℕ) (hn : l.length ≤ n)
    (h : ∀ x ∈ l, (f x).length = sz ∧ ∀ pre post, r (pre ++ f x ++ post) pre.length = some (q x))
    (hz : ∀ pre post, r (pre ++ List.replicate sz 0 ++ post) pre.length = some z) (pre post : List ℕ) :
    rloop (r (pre ++ ((l.map f).flatten ++ List.replicate (sz * (n - l.length)) 0) ++ post)) sz pre.length n 0
      = some (l.map q ++ List.replicate (n - l.length) z) := by
  have := rloop_flat r sz (l.map (fun x => (f x, q x)) ++
      List.replicate (n - l.length) (List.replicate sz 0, z)) (by
    intro p hp
    rcases List.mem_append.1 hp with hp | hp
    · obtain ⟨x, hx, rfl⟩ := List.mem_map.1 hp
      exact h x hx
    · rw [List.eq_of_mem_replicate hp]
      exact ⟨by simp, hz⟩) pre post 0 pre.length (by simp)
  have hl : l.length + (n - l.length) = n := by omega
  rw [replicate_flatten, List.map_replicate]
  simpa [List.map_map, Function.comp_def, hl] using this

theorem takeWhile_pad (l : List ℕ) (m : ℕ) :
    (l ++ List.replicate m 0).takeWhile (· ≠ 0) = l.takeWhile (· ≠ 0) := by
  induction l with
  | nil => cases m <;> simp [List.replicate_succ]
  | cons x xs ih =>
    simp only [List.cons_append, List.takeWhile_cons]
    split
    · rw [ih]
    · rfl

theorem read_enc {e : Env} (g : Good e) : ∀ (t : Ty) (v : Val t), Within t v → ∀ pre post : List ℕ,
    read e t (pre ++ enc e t v ++ post) pre.length = some (back e t v) := by
  intro t
  induction t with
  | prim n =>
    intro v h pre post
    have := peek_mid pre v post
    rw [show v.length = n from h] at this
    exact this
  | str n =>
    intro v h pre post
    have := peek_mid pre (enc e (.str n) v) post
    rw [enc_length g _ v h] at this
    simp only [read, back]
    simp only [size] at this
    rw [this]
    simp only [enc, Option.map_some]
    rw [takeWhile_pad]
    congr 2
    rcases Nat.le_total v.length n with h' | h'
    · rw [Nat.min_eq_left h', List.take_of_length_le h', List.take_of_length_le (le_refl _)]
    · rw [Nat.min_eq_right h']
  | vl =>
    intro v h pre post
    have := peek_mid pre (e.digest v) post
    rw [g.digest_length] at this
    simp only [read, back, enc]
    rw [this, Option.map_some, g.fetch_digest]
  | seq n c ih =>
    intro v h pre post
    exact rloop_pad (read e c) (size c) v (enc e c) (back e c) (zero e c) n h.1
      (fun x hx => ⟨enc_length g c x (h.2 x hx), ih x (h.2 x hx)⟩) (read_zero e c) pre post
  | set n c ih =>
    intro v h pre post
    have := rloop_pad (read e c) (size c) v (enc e c) (back e c) (zero e c) n h.1
      (fun x hx => ⟨enc_length g c x (h.2 x hx), ih x (h.2 x hx)⟩) (read_zero e c) pre post
    simp only [read, enc, back]
    rw [this]
    rfl
  | map n a b iha ihb =>
    intro v h pre post
    have := rloop_pad (fun buf o => (read e a buf o).bind fun x => (read e b buf (o + size a)).map fun y => (x, y))
      (size a + size b) v (fun p => enc e a p.1 ++ enc e b p.2) (fun p => (back e a p.1, back e b p.2))
      (zero e a, zero e b) n h.1
      (fun p hp => ⟨by rw [List.length_append, enc_length g a _ (h.2 p hp).1, enc_length g b _ (h.2 p hp).2],
        fun pre post => by
          have e1 : pre ++ (enc e a p.1 ++ enc e b p.2) ++ post
              = pre ++ enc e a p.1 ++ (enc e b p.2 ++ post) := by simp [List.append_assoc]
          have e2 : pre ++ enc e a p.1 ++ (enc e b p.2 ++ post)
              = (pre ++ enc e a p.1) ++ enc e b p.2 ++ post := by simp [List.append_assoc]
          have hb := ihb _ (h.2 p hp).2 (pre ++ enc e a p.1) post
          rw [List.length_append, enc_length g a _ (h.2 p hp).1] at hb
          rw [e1, iha _ (h.2 p hp).1]
          simp only [Option.bind_some]
          rw [e2, hb]
          rfl⟩)
      (fun pre post => by
        have := read_zero e (.pair a b) pre post
        simpa [read, size, zero] using this) pre post
    simp only [read, enc, back]
    rw [this]
    rfl
  | pair a b iha ihb =>
    intro v h pre post
    simp only [read, enc, back]
    have e1 : pre ++ (enc e a v.1 ++ enc e b v.2) ++ post
        = pre ++ enc e a v.1 ++ (enc e b v.2 ++ post) := by simp [List.append_assoc]
    have e2 : pre ++ enc e a v.1 ++ (enc e b v.2 ++ post)
        = (pre ++ enc e a v.1) ++ enc e b v.2 ++ post := by simp [List.append_assoc]
    have hb := ihb _ h.2 (pre ++ enc e a v.1) post
    rw [List.length_append, enc_length g a _ h.1] at hb
    rw [e1, iha _ h.1]
    simp only [Option.bind_some]
    rw [e2, hb]
    rfl

/-! ## Any bytes can be read -/

/-- Blocks of bytes, each of which can be read. -/
theorem blocks {β : Type} (r : List ℕ → ℕ → Option β) (sz : ℕ)
    (h : ∀ bs : List ℕ, bs.length = sz → ∃ x, ∀ pre post, r (pre ++ bs ++ post) pre.length = some x) :
    ∀ (m : ℕ) (bs : List ℕ), bs.length = sz * m →
      ∃ l : List (List ℕ × β), l.length = m ∧ (l.map (·.1)).flatten = bs ∧
        ∀ p ∈ l, p.1.length = sz ∧ ∀ pre post, r (pre ++ p.1 ++ post) pre.length = some p.2 := by
  intro m
  induction m with
  | zero =>
    intro bs hb
    refine ⟨[], rfl, ?_, by simp⟩
    rw [Nat.mul_zero] at hb
    rw [List.length_eq_zero_iff.1 hb]
    rfl
  | succ m ih =>
    intro bs hb
    rw [Nat.mul_succ] at hb
    obtain ⟨x, hx⟩ := h (bs.take sz) (by simp; omega)
    obtain ⟨l, hl, hf, hr⟩ := ih (bs.drop sz) (by simp; omega)
    refine ⟨(bs.take sz, x) :: l, by simp [hl], by simp [hf], ?_⟩
    intro p hp
    rcases List.mem_cons.1 hp with rfl | hp
    · exact ⟨by simp; omega, hx⟩
    · exact hr p hp

theorem read_any (e : Env) : ∀ (t : Ty) (bs : List ℕ), bs.length = size t →
    ∃ x, ∀ pre post, read e t (pre ++ bs ++ post) pre.length = some x := by
  intro t
  induction t with
  | prim n =>
    intro bs hb
    exact ⟨bs, fun pre post => by rw [← show bs.length = n from hb]; exact peek_mid pre bs post⟩
  | str n =>
    intro bs hb
    exact ⟨bs.takeWhile (· ≠ 0), fun pre post => by
      simp only [read]
      rw [← show bs.length = n from hb, peek_mid pre bs post]; rfl⟩
  | vl =>
    intro bs hb
    exact ⟨e.fetch bs, fun pre post => by
      simp only [read]
      rw [← show bs.length = 20 from hb, peek_mid pre bs post]; rfl⟩
  | seq n c ih =>
    intro bs hb
    obtain ⟨l, hl, hf, hr⟩ := blocks (read e c) (size c) ih n bs hb
    refine ⟨l.map (·.2), fun pre post => ?_⟩
    have := rloop_flat (read e c) (size c) l hr pre post 0 pre.length (by simp)
    rw [hf, hl] at this
    exact this
  | set n c ih =>
    intro bs hb
    obtain ⟨l, hl, hf, hr⟩ := blocks (read e c) (size c) ih n bs hb
    refine ⟨setOf e c (l.map (·.2)), fun pre post => ?_⟩
    have := rloop_flat (read e c) (size c) l hr pre post 0 pre.length (by simp)
    rw [hf, hl] at this
    simp only [read]
    rw [this]
    rfl
  | map n a b iha ihb =>
    intro bs hb
    obtain ⟨l, hl, hf, hr⟩ := blocks
      (fun buf o => (read e a buf o).bind fun x => (read e b buf (o + size a)).map fun y => (x, y))
      (size a + size b) (by
        intro bs hb
        obtain ⟨x, hx⟩ := iha (bs.take (size a)) (by simp; omega)
        obtain ⟨y, hy⟩ := ihb (bs.drop (size a)) (by simp; omega)
        refine ⟨(x, y), fun pre post => ?_⟩
        have e1 : pre ++ bs ++ post = pre ++ bs.take (size a) ++ (bs.drop (size a) ++ post) := by
          conv_lhs => rw [← List.take_append_drop (size a) bs]
          simp only [List.append_assoc]
        have e2 : pre ++ bs.take (size a) ++ (bs.drop (size a) ++ post)
            = (pre ++ bs.take (size a)) ++ bs.drop (size a) ++ post := by simp only [List.append_assoc]
        have hy' := hy (pre ++ bs.take (size a)) post
        rw [List.length_append, List.length_take, Nat.min_eq_left (by omega)] at hy'
        rw [e1, hx]
        simp only [Option.bind_some]
        rw [e2, hy']
        rfl) n bs hb
    refine ⟨mapOf e a b (l.map (·.2)), fun pre post => ?_⟩
    have := rloop_flat
      (fun buf o => (read e a buf o).bind fun x => (read e b buf (o + size a)).map fun y => (x, y))
      (size a + size b) l hr pre post 0 pre.length (by simp)
    rw [hf, hl] at this
    simp only [read]
    rw [this]
    rfl
  | pair a b iha ihb =>
    intro bs hb
    simp only [size] at hb
    obtain ⟨x, hx⟩ := iha (bs.take (size a)) (by simp; omega)
    obtain ⟨y, hy⟩ := ihb (bs.drop (size a)) (by simp; omega)
    refine ⟨(x, y), fun pre post => ?_⟩
    have e1 : pre ++ bs ++ post = pre ++ bs.take (size a) ++ (bs.drop (size a) ++ post) := by
      conv_lhs => rw [← List.take_append_drop (size a) bs]
      simp only [List.append_assoc]
    have e2 : pre ++ bs.take (size a) ++ (bs.drop (size a) ++ post)
        = (pre ++ bs.take (size a)) ++ bs.drop (size a) ++ post := by simp only [List.append_assoc]
    have hy' := hy (pre ++ bs.take (size a)) post
    rw [List.length_append, List.length_take, Nat.min_eq_left (by omega)] at hy'
    simp only [read]
    rw [e1, hx]
    simp only [Option.bind_some]
    rw [e2, hy']
    rfl

/-! ## The top of a column -/

/-- What `writeTop` leaves in a column of the length of the shape: the elements which have room, and what was there. -/
theorem writeTop_eq {α : Type} (w : α → ℕ → List ℕ → Option (List ℕ)) (f : α → List ℕ) (sz n : ℕ) (hsz : 1 ≤ sz)
    (v : List α) (hw : ∀ x ∈ v, (f x).length = sz ∧ ∀ o buf, w x o buf = poke buf o (f x))
    (pre old post : List ℕ) (ho : old.length = sz * n) :
    writeTop w sz n (sz * n) v pre.length (pre ++ old ++ post)
      = some (pre ++ (((v.take n).map f).flatten ++ old.drop (sz * (v.take n).length)) ++ post) := by
  have hv' : (if sz * v.length > sz * n then v.take (sz * n / sz) else v) = v.take n := by
    rw [Nat.mul_div_cancel_left _ (by omega)]
    split
    · rfl
    · rename_i h
      rw [List.take_of_length_le]
      by_contra hc
      exact h (Nat.mul_lt_mul_of_pos_left (by omega) (by omega))
  unfold writeTop
  simp only [hv', lt_irrefl, if_false]
  have hw' : ∀ x ∈ v.take n, (f x).length = sz ∧ ∀ o buf, w x o buf = poke buf o (f x) :=
    fun x hx => hw x (List.mem_of_mem_take hx)
  rw [wloop_flat w f sz _ _ hw' 0 _ (by simp)]
  have hlen := length_flatten_const (v.take n) f sz (fun x hx => (hw' x hx).1)
  have hle : sz * (v.take n).length ≤ sz * n := Nat.mul_le_mul_left _ (by simp)
  rw [Nat.mul_zero, Nat.add_zero]
  have e1 : pre ++ old ++ post = pre ++ old.take (sz * (v.take n).length)
      ++ (old.drop (sz * (v.take n).length) ++ post) := by
    conv_lhs => rw [← List.take_append_drop (sz * (v.take n).length) old]
    simp only [List.append_assoc]
  rw [e1, poke_mid _ _ _ _ (by rw [hlen, List.length_take (l := old)]; omega)]
  simp [List.append_assoc]

/-- Reading such a column. -/
theorem rloop_top {α β : Type} (r : List ℕ → ℕ → Option β) (sz n : ℕ) (v : List α) (f : α → List ℕ) (q : α → β)
    (h : ∀ x ∈ v, (f x).length = sz ∧ ∀ pre post, r (pre ++ f x ++ post) pre.length = some (q x))
    (hany : ∀ bs : List ℕ, bs.length = sz → ∃ x, ∀ pre post, r (pre ++ bs ++ post) pre.length = some x)
    (old : List ℕ) (ho : old.length = sz * n) :
    ∃ u : List β, u.length = n - v.length ∧ ∀ pre post : List ℕ,
      rloop (r (pre ++ (((v.take n).map f).flatten ++ old.drop (sz * (v.take n).length)) ++ post)) sz pre.length n 0
        = some ((v.take n).map q ++ u) := by
  have hmin : (v.take n).length = min n v.length := by simp
  obtain ⟨l, hl, hf, hr⟩ := blocks r sz hany (n - v.length) (old.drop (sz * (v.take n).length)) (by
    rw [List.length_drop, ho, hmin, ← Nat.mul_sub]
    congr 1
    omega)
  refine ⟨l.map (·.2), by simp [hl], fun pre post => ?_⟩
  have := rloop_flat r sz ((v.take n).map (fun x => (f x, q x)) ++ l) (by
    intro p hp
    rcases List.mem_append.1 hp with hp | hp
    · obtain ⟨x, hx, rfl⟩ := List.mem_map.1 hp
      exact h x (List.mem_of_mem_take hx)
    · exact hr p hp) pre post 0 pre.length (by simp)
  have hn : ((v.take n).map (fun x => (f x, q x)) ++ l).length = n := by
    simp [hl]; omega
  rw [hn, List.map_append, List.flatten_append, hf, List.map_append, List.map_map, List.map_map] at this
  exact this

/-- A column is written within its bounds, and what is read from it is what may be seen. -/
theorem writeCol_seen {e : Env} (g : Good e) (t : Ty) (hs : Shaped t) (hz : size t < 2 ^ 64) (v : Val t)
    (h : WithinBelow t v) (pre old post : List ℕ) (ho : old.length = size t) :
    ∃ new : List ℕ, new.length = size t ∧
      writeCol e t v (size t) pre.length (pre ++ old ++ post) = some (pre ++ new ++ post) ∧
      ∃ x, Seen e t v x ∧ ∀ pre post : List ℕ, read e t (pre ++ new ++ post) pre.length = some x := by
  have simple : ∀ (hw : Within t v), writeCol e t v (size t) pre.length (pre ++ old ++ post)
        = write e t v pre.length (pre ++ old ++ post) → Seen e t v (back e t v) →
      ∃ new : List ℕ, new.length = size t ∧
      writeCol e t v (size t) pre.length (pre ++ old ++ post) = some (pre ++ new ++ post) ∧
      ∃ x, Seen e t v x ∧ ∀ pre post : List ℕ, read e t (pre ++ new ++ post) pre.length = some x := by
    intro hw heq hseen
    refine ⟨enc e t v, enc_length g t v hw, ?_, back e t v, hseen, read_enc g t v hw⟩
    rw [heq, write_enc g t hs hz v hw, poke_mid _ _ _ _ (by rw [enc_length g t v hw, ho])]
  have len : ∀ (sz n m : ℕ) (fl : List ℕ), fl.length = sz * m → m ≤ n → old.length = sz * n →
      (fl ++ old.drop (sz * m)).length = sz * n := by
    intro sz n m fl h1 h2 h3
    have := Nat.mul_le_mul_left sz h2
    rw [List.length_append, List.length_drop]; omega
  cases t with
  | prim n => exact simple h rfl rfl
  | str n => exact simple h rfl rfl
  | vl => exact simple h rfl rfl
  | pair a b => exact simple h rfl rfl
  | seq n c =>
    have hc : size c < 2 ^ 64 := lt_of_le_of_lt (Nat.le_mul_of_pos_right _ hs.1) hz
    obtain ⟨u, hu, hr⟩ := rloop_top (read e c) (size c) n v (enc e c) (back e c)
      (fun x hx => ⟨enc_length g c x (h x hx), read_enc g c x (h x hx)⟩) (read_any e c) old ho
    refine ⟨_, len _ _ _ _ (length_flatten_const _ _ (size c) fun x hx =>
      enc_length g c x (h x (List.mem_of_mem_take hx))) (by simp) ho,
      writeTop_eq _ (enc e c) (size c) n (size_pos c hs.2) v
        (fun x hx => ⟨enc_length g c x (h x hx), write_enc g c hs.2 hc x (h x hx)⟩) pre old post ho, ?_⟩
    exact ⟨_, ⟨u, hu, rfl⟩, hr⟩
  | set n c =>
    have hc : size c < 2 ^ 64 := lt_of_le_of_lt (Nat.le_mul_of_pos_right _ hs.1) hz
    obtain ⟨u, hu, hr⟩ := rloop_top (read e c) (size c) n v (enc e c) (back e c)
      (fun x hx => ⟨enc_length g c x (h x hx), read_enc g c x (h x hx)⟩) (read_any e c) old ho
    refine ⟨_, len _ _ _ _ (length_flatten_const _ _ (size c) fun x hx =>
      enc_length g c x (h x (List.mem_of_mem_take hx))) (by simp) ho,
      writeTop_eq _ (enc e c) (size c) n (size_pos c hs.2) v
        (fun x hx => ⟨enc_length g c x (h x hx), write_enc g c hs.2 hc x (h x hx)⟩) pre old post ho, ?_⟩
    refine ⟨_, ⟨u, hu, rfl⟩, fun pre post => ?_⟩
    simp only [read]
    rw [hr]
    rfl
  | map n a b =>
    have hab : size a + size b < 2 ^ 64 := lt_of_le_of_lt (Nat.le_mul_of_pos_right _ hs.1) hz
    have hpos := size_pos a hs.2.1
    have hlen : ∀ p ∈ v, (enc e a p.1 ++ enc e b p.2).length = size a + size b := fun p hp => by
      rw [List.length_append, enc_length g a _ (h p hp).1, enc_length g b _ (h p hp).2]
    obtain ⟨u, hu, hr⟩ := rloop_top
      (fun buf o => (read e a buf o).bind fun x => (read e b buf (o + size a)).map fun y => (x, y))
      (size a + size b) n v (fun p => enc e a p.1 ++ enc e b p.2) (fun p => (back e a p.1, back e b p.2))
      (fun p hp => ⟨hlen p hp, fun pre post => read_enc g (.pair a b) p (h p hp) pre post⟩)
      (read_any e (.pair a b)) old ho
    refine ⟨_, len _ _ _ _ (length_flatten_const _ _ (size a + size b) fun p hp =>
      hlen p (List.mem_of_mem_take hp)) (by simp) ho,
      writeTop_eq (fun (p : Val a × Val b) o bf => (write e a p.1 o bf).bind (write e b p.2 (o + size a)))
        (fun p : Val a × Val b => enc e a p.1 ++ enc e b p.2) (size a + size b) n (by omega) v
        (fun p hp => ⟨hlen p hp, fun o bf => write_enc g (.pair a b) hs.2 hab p (h p hp) o bf⟩) pre old post ho, ?_⟩
    refine ⟨_, ⟨u, hu, rfl⟩, fun pre post => ?_⟩
    simp only [read]
    rw [hr]
    rfl

/-! ## Rows -/

/-- The sum of the sizes of the cells of a row. -/
def width (d : List Cell) : ℕ := (d.map fun c => size c.1).sum

theorem width_cons (c : Cell) (d : List Cell) : width (c :: d) = size c.1 + width d := by simp [width]

theorem fillRow_aux {e : Env} (g : Good e) : ∀ (d2 d1 : List Cell),
    (∀ c ∈ d2, Shaped c.1 ∧ size c.1 < 2 ^ 64 ∧ WithinBelow c.1 c.2) → ∀ (pre old post : List ℕ),
    old.length = width d2 →
    ∃ new : List ℕ, new.length = width d2 ∧
      fillRow e ((d1 ++ d2).map fun c => size c.1) (d1 ++ d2) d2.length d1.length pre.length (pre ++ old ++ post)
        = some (pre.length + width d2, pre ++ new ++ post) ∧
      ∃ row, List.Forall₂ (CellRel (Seen e)) d2 row ∧
        ∀ pre post : List ℕ, readRow e (pre ++ new ++ post) (d2.map (·.1)) pre.length = some row := by
  intro d2
  induction d2 with
  | nil =>
    intro d1 _ pre old post ho
    have : old = [] := List.length_eq_zero_iff.1 ho
    subst this
    exact ⟨[], rfl, by simp [fillRow, width], [], List.Forall₂.nil, fun _ _ => rfl⟩
  | cons c cs ih =>
    intro d1 hd pre old post ho
    obtain ⟨hs, hz, hw⟩ := hd c (by simp)
    rw [width_cons] at ho
    obtain ⟨n1, hl1, hw1, x, hx, hr1⟩ := writeCol_seen g c.1 hs hz c.2 hw pre (old.take (size c.1))
      (old.drop (size c.1) ++ post) (by simp; omega)
    obtain ⟨n2, hl2, hw2, row, hrow, hr2⟩ := ih (d1 ++ [c]) (fun y hy => hd y (by simp [hy])) (pre ++ n1)
      (old.drop (size c.1)) post (by simp; omega)
    refine ⟨n1 ++ n2, by rw [List.length_append, width_cons, hl1, hl2], ?_, ⟨c.1, x⟩ :: row, ?_, ?_⟩
    · have e1 : pre ++ old ++ post = pre ++ old.take (size c.1) ++ (old.drop (size c.1) ++ post) := by
        conv_lhs => rw [← List.take_append_drop (size c.1) old]
        simp only [List.append_assoc]
      have i1 : (d1 ++ c :: cs)[d1.length]? = some c := by simp
      have i2 : ((d1 ++ c :: cs).map fun c => size c.1)[d1.length]? = some (size c.1) := by simp
      simp only [List.length_cons, fillRow, i1, i2]
      rw [e1, hw1]
      simp only [Option.bind_some]
      have e2 : pre ++ n1 ++ (old.drop (size c.1) ++ post) = (pre ++ n1) ++ old.drop (size c.1) ++ post := by
        simp only [List.append_assoc]
      have e3 : d1 ++ c :: cs = d1 ++ [c] ++ cs := by simp
      rw [e2, e3]
      have := hw2
      rw [List.length_append, List.length_append, List.length_singleton, hl1] at this
      rw [this, width_cons]
      simp [List.append_assoc, Nat.add_assoc]
    · refine List.Forall₂.cons ?_ hrow
      obtain ⟨t, v⟩ := c
      exact CellRel.mk t v x hx
    · intro pre post
      simp only [List.map_cons, readRow]
      have e1 : pre ++ (n1 ++ n2) ++ post = pre ++ n1 ++ (n2 ++ post) := by simp only [List.append_assoc]
      have e2 : pre ++ n1 ++ (n2 ++ post) = (pre ++ n1) ++ n2 ++ post := by simp only [List.append_assoc]
      have := hr2 (pre ++ n1) post
      rw [List.length_append, hl1] at this
      rw [e1, hr1]
      simp only [Option.bind_some]
      rw [e2, this]
      rfl

/-- The bytes of a row, and what is read from them. -/
def Rec (e : Env) (ts : List Ty) (d : List Cell) (p : List ℕ × List Cell) : Prop :=
  p.1.length = (ts.map size).sum ∧ List.Forall₂ (CellRel (Seen e)) d p.2 ∧
    ∀ pre post : List ℕ, readRow e (pre ++ p.1 ++ post) ts pre.length = some p.2

theorem fillBuf_rec {e : Env} (g : Good e) (ts : List Ty) (hts : ∀ t ∈ ts, Shaped t ∧ size t < 2 ^ 64) :
    ∀ (ds : List (List Cell)), (∀ d ∈ ds, RowOf ts WithinBelow d) → ∀ (pre old post : List ℕ),
    old.length = ds.length * (ts.map size).sum →
    ∃ rs : List (List ℕ × List Cell), List.Forall₂ (Rec e ts) ds rs ∧
      fillBuf e (ts.map size) ts.length ds pre.length (pre ++ old ++ post)
        = some (pre ++ (rs.map (·.1)).flatten ++ post) := by
  intro ds
  induction ds with
  | nil =>
    intro _ pre old post ho
    have : old = [] := List.length_eq_zero_iff.1 (by simpa using ho)
    subst this
    exact ⟨[], List.Forall₂.nil, by simp [fillBuf]⟩
  | cons d ds ih =>
    intro hd pre old post ho
    obtain ⟨hty, hwb⟩ := hd d (by simp)
    have hwid : width d = (ts.map size).sum := by rw [← hty, List.map_map]; rfl
    have hm : (d.map fun c => size c.1) = ts.map size := by rw [← hty, List.map_map]; rfl
    rw [List.length_cons, Nat.succ_mul] at ho
    obtain ⟨n1, hl1, hw1, row, hrow, hr⟩ := fillRow_aux g d [] (fun c hc => by
      have : c.1 ∈ ts := by rw [← hty]; exact List.mem_map.2 ⟨c, hc, rfl⟩
      exact ⟨(hts _ this).1, (hts _ this).2, hwb c hc⟩) pre (old.take (width d)) (old.drop (width d) ++ post)
      (by simp; omega)
    obtain ⟨rs, hrs, hf⟩ := ih (fun d' hd' => hd d' (by simp [hd'])) (pre ++ n1) (old.drop (width d)) post
      (by simp; omega)
    refine ⟨(n1, row) :: rs, List.Forall₂.cons ⟨by rw [hl1, hwid], hrow, by rw [← hty]; exact hr⟩ hrs, ?_⟩
    have e1 : pre ++ old ++ post = pre ++ old.take (width d) ++ (old.drop (width d) ++ post) := by
      conv_lhs => rw [← List.take_append_drop (width d) old]
      simp only [List.append_assoc]
    have e2 : pre ++ n1 ++ (old.drop (width d) ++ post) = (pre ++ n1) ++ old.drop (width d) ++ post := by
      simp only [List.append_assoc]
    have hlen : d.length = ts.length := by rw [← hty, List.length_map]
    simp only [List.nil_append, List.length_nil] at hw1
    simp only [fillBuf]
    rw [e1, ← hm, ← hlen, hw1]
    simp only [Option.bind_some]
    rw [List.length_append, hl1] at hf
    rw [e2, hm, hlen, hf]
    simp [List.append_assoc]

/-! ## Tables -/

/-- A table with the columns `ts` which has the rows `ds`. -/
def Holds (e : Env) (ts : List Ty) (ds : List (List Cell)) (t : Table) : Prop :=
  t.schema = ts ∧ ∃ rs : List (List ℕ × List Cell), List.Forall₂ (Rec e ts) ds rs ∧ t.nrec = ds.length ∧
    t.data = (rs.map (·.1)).flatten

theorem rec_length {e : Env} {ts : List Ty} {ds : List (List Cell)} {rs : List (List ℕ × List Cell)}
    (h : List.Forall₂ (Rec e ts) ds rs) : (rs.map (·.1)).flatten.length = ds.length * (ts.map size).sum := by
  induction h with
  | nil => simp
  | cons h _ ih =>
    simp only [List.map_cons, List.flatten_cons, List.length_append, List.length_cons]
    rw [ih, h.1, Nat.succ_mul, Nat.add_comm]

theorem writeGroup_holds {e : Env} (g : Good e) (ts : List Ty) (hts : ∀ t ∈ ts, Shaped t ∧ size t < 2 ^ 64)
    (ds : List (List Cell)) (t : Table) (ht : Holds e ts ds t) (group : List (List Cell)) (hne : group ≠ [])
    (hg : ∀ d ∈ group, RowOf ts WithinBelow d) (fresh : ℕ → ℕ) :
    ∃ t', writeGroup e t group fresh = some t' ∧ Holds e ts (ds ++ group) t' := by
  obtain ⟨hsch, rs, hrs, hn, hdata⟩ := ht
  cases group with
  | nil => exact absurd rfl hne
  | cons d group =>
    have hsz : t.sizes = ts.map size := by rw [Table.sizes, hsch]
    have hrow : t.rowsize = (ts.map size).sum := by rw [Table.rowsize, hsz]
    have hlen : d.length = ts.length := by rw [← (hg d (by simp)).1, List.length_map]
    obtain ⟨rs', hrs', hf⟩ := fillBuf_rec g ts hts (d :: group) hg []
      ((List.range ((d :: group).length * t.rowsize)).map fresh) [] (by simp [hrow])
    simp only [List.nil_append, List.append_nil, List.length_nil] at hf
    refine ⟨{ t with nrec := t.nrec + (d :: group).length, data := t.data.take (t.nrec * t.rowsize) ++
        (rs'.map (·.1)).flatten }, by simp only [writeGroup]; rw [hsz, hlen, hf]; rfl, hsch, rs ++ rs', ?_, ?_, ?_⟩
    · exact List.rel_append hrs hrs'
    · simp [hn]
    · simp only
      rw [hrow, hn, hdata, List.take_of_length_le (by rw [rec_length hrs])]
      simp

theorem history_holds {e : Env} (g : Good e) (ts : List Ty) (hts : ∀ t ∈ ts, Shaped t ∧ size t < 2 ^ 64) :
    ∀ (gs : List (List (List Cell) × (ℕ → ℕ))), (∀ p ∈ gs, ∀ d ∈ p.1, RowOf ts WithinBelow d) →
    ∀ (ds : List (List Cell)) (t : Option Table),
      (match t with | none => ds = [] | some t => Holds e ts ds t) →
      ∃ t', history e t gs = some t' ∧
        match t' with
        | none => ds = [] ∧ (gs.map (·.1)).flatten = []
        | some t' => Holds e ts (ds ++ (gs.map (·.1)).flatten) t' := by
  intro gs
  induction gs with
  | nil =>
    intro _ ds t ht
    refine ⟨t, rfl, ?_⟩
    cases t with
    | none => exact ⟨ht, rfl⟩
    | some t => simpa using ht
  | cons p gs ih =>
    obtain ⟨group, fresh⟩ := p
    intro hgs ds t ht
    cases group with
    | nil =>
      obtain ⟨t', h1, h2⟩ := ih (fun q hq => hgs q (by simp [hq])) ds t ht
      exact ⟨t', by simpa [history, notify] using h1, by simpa using h2⟩
    | cons d group =>
      have hT : Holds e ts ds (t.getD (create d)) := by
        cases t with
        | some t => exact ht
        | none =>
          have : ds = [] := ht
          subst this
          exact ⟨(hgs (d :: group, fresh) (by simp) d (by simp)).1, [], List.Forall₂.nil, rfl, rfl⟩
      obtain ⟨t1, h1, h2⟩ := writeGroup_holds g ts hts ds _ hT (d :: group) (by simp)
        (hgs (d :: group, fresh) (by simp)) fresh
      obtain ⟨t', h3, h4⟩ := ih (fun q hq => hgs q (by simp [hq])) (ds ++ (d :: group)) (some t1) h2
      refine ⟨t', ?_, ?_⟩
      · simp only [history, notify]
        rw [h1]
        exact h3
      · cases t' with
        | none => simp at h4
        | some t' => simpa [List.append_assoc] using h4

theorem readRows_flat {e : Env} {ts : List Ty} (ds : List (List Cell)) (rs : List (List ℕ × List Cell))
    (h : List.Forall₂ (Rec e ts) ds rs) : ∀ (pre post : List ℕ) (i : ℕ), i * (ts.map size).sum = pre.length →
      readRows e ts (ts.map size).sum (pre ++ (rs.map (·.1)).flatten ++ post) rs.length i
        = some (rs.map (·.2)) := by
  induction h with
  | nil => intro _ _ _ _; rfl
  | @cons d p ds rs hp _ ih =>
    intro pre post i hi
    simp only [List.map_cons, List.flatten_cons, List.length_cons, readRows]
    have e1 : pre ++ (p.1 ++ (rs.map (·.1)).flatten) ++ post = pre ++ p.1 ++ ((rs.map (·.1)).flatten ++ post) := by
      simp only [List.append_assoc]
    have e2 : pre ++ p.1 ++ ((rs.map (·.1)).flatten ++ post) = (pre ++ p.1) ++ (rs.map (·.1)).flatten ++ post := by
      simp only [List.append_assoc]
    rw [hi, e1, hp.2.2]
    simp only [Option.bind_some]
    rw [e2, ih (pre ++ p.1) post (i + 1) (by rw [Nat.succ_mul, List.length_append, hp.1, hi])]
    rfl

theorem readChunks_flat {e : Env} {ts : List Ty} (t : Table) (chunk : ℕ) (hc : 1 ≤ chunk)
    (hsch : t.schema = ts) :
    ∀ (m n : ℕ) (d1 d2 : List (List Cell)) (r1 r2 : List (List ℕ × List Cell)),
      List.Forall₂ (Rec e ts) d1 r1 → List.Forall₂ (Rec e ts) d2 r2 → d1.length = n * chunk →
      t.nrec = (d1 ++ d2).length → t.data = ((r1 ++ r2).map (·.1)).flatten →
      d2.length ≤ m * chunk → (m - 1) * chunk < d2.length ∨ m = 0 →
      readChunks e t chunk m n = some (r2.map (·.2)) := by
  intro m
  induction m with
  | zero =>
    intro n d1 d2 r1 r2 _ h2 _ _ _ hle _
    have : d2 = [] := List.length_eq_zero_iff.1 (by omega)
    subst this
    cases h2
    rfl
  | succ m ih =>
    intro n d1 d2 r1 r2 h1 h2 hd1 hnrec hdata hle hlt
    have hrow : t.rowsize = (ts.map size).sum := by rw [Table.rowsize, Table.sizes, hsch]
    have hsub : t.nrec - n * chunk = d2.length := by rw [hnrec, List.length_append]; omega
    have hcount : (if t.nrec - n * chunk < chunk then t.nrec - n * chunk else chunk)
        = (d2.take chunk).length := by
      rw [hsub, List.length_take]; split <;> omega
    have hA : List.Forall₂ (Rec e ts) (d2.take chunk) (r2.take chunk) := List.forall₂_take chunk h2
    have hB : List.Forall₂ (Rec e ts) (d2.drop chunk) (r2.drop chunk) := List.forall₂_drop chunk h2
    have hlA := rec_length hA
    have hl1 := rec_length h1
    simp only [readChunks, hcount]
    have hsplit : t.data = (r1.map (·.1)).flatten ++ ((r2.take chunk).map (·.1)).flatten
        ++ ((r2.drop chunk).map (·.1)).flatten := by
      rw [hdata]
      simp only [← List.flatten_append, ← List.map_append, List.append_assoc, List.take_append_drop]
    have hpeek : peek t.data (n * chunk * t.rowsize) ((d2.take chunk).length * t.rowsize)
        = some ((r2.take chunk).map (·.1)).flatten := by
      rw [hrow, ← hd1, ← hl1, ← hlA, hsplit]
      exact peek_mid _ _ _
    rw [hpeek]
    simp only [Option.bind_some]
    have hrr := readRows_flat _ _ hA [] [] 0 (by simp)
    simp only [List.nil_append, List.append_nil] at hrr
    rw [hsch, hrow, hA.length_eq, hrr]
    simp only [Option.bind_some]
    have hm : m = 0 ∨ chunk < d2.length := by
      rcases Nat.eq_zero_or_pos m with h | h
      · exact Or.inl h
      · right
        rcases hlt with hlt | hlt
        · have : chunk ≤ m * chunk := Nat.le_mul_of_pos_left _ h
          simp only [Nat.add_sub_cancel] at hlt
          omega
        · omega
    rcases hm with hm | hm
    · subst hm
      simp only [readChunks, Option.map_some, List.append_nil]
      rw [List.take_of_length_le]
      rw [← h2.length_eq]
      omega
    · have := ih (n + 1) (d1 ++ d2.take chunk) (d2.drop chunk) (r1 ++ r2.take chunk) (r2.drop chunk)
        (List.rel_append h1 hA) hB (by rw [List.length_append, hd1, List.length_take, Nat.succ_mul]; omega)
        (by rw [hnrec]; simp) (by rw [hdata]; simp)
        (by rw [List.length_drop]; rw [Nat.succ_mul] at hle; omega)
        (by
          rcases Nat.eq_zero_or_pos m with h | h
          · exact Or.inr h
          · left
            rcases hlt with hlt | hlt
            · simp only [Nat.add_sub_cancel] at hlt
              have : (m - 1) * chunk + chunk = m * chunk := by
                rw [← Nat.succ_mul]; congr 1; omega
              rw [List.length_drop]; omega
            · omega)
      rw [this]
      simp only [Option.map_some, ← List.map_append, List.take_append_drop]

theorem query_holds {e : Env} {ts : List Ty} {ds : List (List Cell)} {t : Table} (h : Holds e ts ds t) (chunk : ℕ)
    (hc : 1 ≤ chunk) :
    ∃ rows, query e t chunk = some rows ∧ List.Forall₂ (List.Forall₂ (CellRel (Seen e))) ds rows := by
  obtain ⟨hsch, rs, hrs, hn, hdata⟩ := h
  refine ⟨rs.map (·.2), ?_, ?_⟩
  · have hdm := Nat.div_add_mod t.nrec chunk
    have hlt := Nat.mod_lt t.nrec hc
    have hcomm : chunk * (t.nrec / chunk) = t.nrec / chunk * chunk := Nat.mul_comm _ _
    refine readChunks_flat t chunk hc hsch _ 0 [] ds [] rs List.Forall₂.nil hrs (by simp) (by simpa using hn)
      (by simpa using hdata) ?_ ?_
    · rw [← hn]
      split
      · rw [Nat.add_zero]; omega
      · rw [Nat.succ_mul]; omega
    · rw [← hn]
      split
      · rcases Nat.eq_zero_or_pos (t.nrec / chunk) with h | h
        · right; omega
        · left
          have : (t.nrec / chunk - 1) * chunk + chunk = t.nrec / chunk * chunk := by
            rw [← Nat.succ_mul]; congr 1; omega
          rw [Nat.add_zero]; omega
      · left
        rw [Nat.add_sub_cancel]; omega
  · clear hn hdata
    induction hrs with
    | nil => exact List.Forall₂.nil
    | cons h _ ih => exact List.Forall₂.cons h.2.1 ih

end Cyclus.Hdf5Rows
