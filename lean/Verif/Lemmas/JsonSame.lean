import Verif.Model.JsonText

/-! # A test whether two JSON values are the same, to check concrete cases -/

namespace Cyclus.JsonText

mutual

/-- Whether two values are the same. -/
def same : V → V → Bool
  | .null, .null => true
  | .int a, .int b => a == b
  | .uint a, .uint b => a == b
  | .real a, .real b => decide (a = b)
  | .str a, .str b => a == b
  | .bool a, .bool b => a == b
  | .arr a, .arr b => sameItems a b
  | .obj a, .obj b => sameMembers a b
  | _, _ => false

/-- Whether the items are the same. -/
def sameItems : List V → List V → Bool
  | [], [] => true
  | x :: a, y :: b => same x y && sameItems a b
  | _, _ => false

/-- Whether the members are the same. -/
def sameMembers : List (Text × V) → List (Text × V) → Bool
  | [], [] => true
  | (k, x) :: a, (l, y) :: b => k == l && same x y && sameMembers a b
  | _, _ => false

end

mutual

theorem same_eq : (a b : V) → same a b = true → a = b
  | .null, b, h => by cases b <;> simp [same] at h ⊢
  | .int _, b, h => by cases b <;> simp [same] at h ⊢ <;> exact h
  | .uint _, b, h => by cases b <;> simp [same] at h ⊢ <;> exact h
  | .real _, b, h => by cases b <;> simp [same] at h ⊢ <;> exact h
  | .str _, b, h => by cases b <;> simp [same] at h ⊢ <;> exact h
  | .bool _, b, h => by cases b <;> simp [same] at h ⊢ <;> exact h
  | .arr l, b, h => by
    cases b <;> simp [same] at h ⊢
    exact sameItems_eq l _ h
  | .obj l, b, h => by
    cases b <;> simp [same] at h ⊢
    exact sameMembers_eq l _ h

theorem sameItems_eq : (a b : List V) → sameItems a b = true → a = b
  | [], b, h => by cases b <;> simp [sameItems] at h ⊢
  | x :: a, b, h => by
    cases b with
    | nil => simp [sameItems] at h
    | cons y b =>
      rw [sameItems, Bool.and_eq_true] at h
      rw [same_eq x y h.1, sameItems_eq a b h.2]

theorem sameMembers_eq : (a b : List (Text × V)) → sameMembers a b = true → a = b
  | [], b, h => by cases b <;> simp [sameMembers] at h ⊢
  | (k, x) :: a, b, h => by
    cases b with
    | nil => simp [sameMembers] at h
    | cons q b =>
      obtain ⟨l, y⟩ := q
      rw [sameMembers, Bool.and_eq_true, Bool.and_eq_true] at h
      rw [same_eq x y h.1.2, sameMembers_eq a b h.2, show k = l by simpa using h.1.1]

end

/-- Whether the result is this value with this rest. -/
def isOk (r : Res V) (v : V) (t : Text) : Bool :=
  match r with
  | .ok a s => same a v && s == t
  | _ => false

/-- Whether the result is an error. -/
def isBad (r : Res V) : Bool :=
  match r with
  | .bad => true
  | _ => false

theorem of_isOk {r : Res V} {v : V} {t : Text} (h : isOk r v t = true) : r = .ok v t := by
  cases r with
  | ok a s =>
    rw [isOk, Bool.and_eq_true] at h
    rw [same_eq a v h.1, show s = t by simpa using h.2]
  | bad => simp [isOk] at h
  | out => simp [isOk] at h

theorem of_isBad {r : Res V} (h : isBad r = true) : r = .bad := by
  cases r <;> simp [isBad] at h ⊢

end Cyclus.JsonText
