import Verif.Model.HoconResolve

/-! # Helper lemmas: comparing values, for examples that are evaluated -/

namespace OniComb.Hocon
open OniComb
open OniComb.Uri (Bytes byte bytes)

mutual
/-- Equality of values as a program. -/
def eqb (a b : Value) : Bool :=
  match a, b with
  | .null, .null => true
  | .bool x, .bool y => decide (x = y)
  | .str x, .str y => decide (x = y)
  | .num x, .num y => decide (x = y)
  | .dur x u, .dur y v => decide (x = y ∧ u = v)
  | .arr x, .arr y => eqbList x y
  | .obj x, .obj y => eqbEntries x y
  | .enumeration p x, .enumeration q y => eqbOption p q && eqbList x y
  | .ref p x o, .ref q y o' => eqbOption p q && decide (x = y ∧ o = o')
  | .incl m f, .incl m' f' => decide (m = m' ∧ f = f')
  | .link p v, .link q w => eqb p q && eqb v w
  | _, _ => false
/-- The same for lists. -/
def eqbList (a b : List Value) : Bool :=
  match a, b with
  | [], [] => true
  | x :: a, y :: b => eqb x y && eqbList a b
  | _, _ => false
/-- The same for entries. -/
def eqbEntries (a b : List (Bytes × Value)) : Bool :=
  match a, b with
  | [], [] => true
  | x :: a, y :: b => eqbEntry x y && eqbEntries a b
  | _, _ => false
/-- The same for one entry. -/
def eqbEntry (a b : Bytes × Value) : Bool :=
  match a, b with
  | (k, v), (l, w) => decide (k = l) && eqb v w
/-- The same for options. -/
def eqbOption (a b : Option Value) : Bool :=
  match a, b with
  | none, none => true
  | some x, some y => eqb x y
  | _, _ => false
end

mutual
theorem eqb_eq (a b : Value) (h : eqb a b = true) : a = b := by
  match a with
  | .null =>
    cases b with
    | null => rfl
    | _ => simp [eqb] at h
  | .bool x =>
    cases b with
    | bool y => rw [eqb] at h; cases of_decide_eq_true h; rfl
    | _ => simp [eqb] at h
  | .str x =>
    cases b with
    | str y => rw [eqb] at h; cases of_decide_eq_true h; rfl
    | _ => simp [eqb] at h
  | .num x =>
    cases b with
    | num y => rw [eqb] at h; cases of_decide_eq_true h; rfl
    | _ => simp [eqb] at h
  | .dur x u =>
    cases b with
    | dur y v => rw [eqb] at h; obtain ⟨rfl, rfl⟩ := of_decide_eq_true h; rfl
    | _ => simp [eqb] at h
  | .arr x =>
    cases b with
    | arr y => rw [eqb] at h; rw [eqbList_eq x y h]
    | _ => simp [eqb] at h
  | .obj x =>
    cases b with
    | obj y => rw [eqb] at h; rw [eqbEntries_eq x y h]
    | _ => simp [eqb] at h
  | .enumeration p x =>
    cases b with
    | enumeration q y => rw [eqb, Bool.and_eq_true] at h; rw [eqbOption_eq p q h.1, eqbList_eq x y h.2]
    | _ => simp [eqb] at h
  | .ref p x o =>
    cases b with
    | ref q y o' => rw [eqb, Bool.and_eq_true] at h; obtain ⟨rfl, rfl⟩ := of_decide_eq_true h.2; rw [eqbOption_eq p q h.1]
    | _ => simp [eqb] at h
  | .incl m f =>
    cases b with
    | incl m' f' => rw [eqb] at h; obtain ⟨rfl, rfl⟩ := of_decide_eq_true h; rfl
    | _ => simp [eqb] at h
  | .link p v =>
    cases b with
    | link q w => rw [eqb, Bool.and_eq_true] at h; rw [eqb_eq p q h.1, eqb_eq v w h.2]
    | _ => simp [eqb] at h
theorem eqbList_eq (a b : List Value) (h : eqbList a b = true) : a = b := by
  match a with
  | [] =>
    cases b with
    | nil => rfl
    | cons => simp [eqbList] at h
  | x :: a =>
    cases b with
    | nil => simp [eqbList] at h
    | cons y b => rw [eqbList, Bool.and_eq_true] at h; rw [eqb_eq x y h.1, eqbList_eq a b h.2]
theorem eqbEntries_eq (a b : List (Bytes × Value)) (h : eqbEntries a b = true) : a = b := by
  match a with
  | [] =>
    cases b with
    | nil => rfl
    | cons => simp [eqbEntries] at h
  | x :: a =>
    cases b with
    | nil => simp [eqbEntries] at h
    | cons y b => rw [eqbEntries, Bool.and_eq_true] at h; rw [eqbEntry_eq x y h.1, eqbEntries_eq a b h.2]
theorem eqbEntry_eq (a b : Bytes × Value) (h : eqbEntry a b = true) : a = b := by
  match a with
  | (k, v) =>
    obtain ⟨l, w⟩ := b
    rw [eqbEntry, Bool.and_eq_true] at h
    cases of_decide_eq_true h.1
    rw [eqb_eq v w h.2]
theorem eqbOption_eq (a b : Option Value) (h : eqbOption a b = true) : a = b := by
  match a with
  | none =>
    cases b with
    | none => rfl
    | some => simp [eqbOption] at h
  | some x =>
    cases b with
    | none => simp [eqbOption] at h
    | some y => rw [eqbOption] at h; rw [eqb_eq x y h]
end

/-- The parser returned these values. -/
def okIs (r : Res.Out UInt8 (List Value)) (vs : List Value) : Bool :=
  match r with
  | .ok us => eqbList us vs
  | _ => false

theorem okIs_eq {r : Res.Out UInt8 (List Value)} {vs : List Value} (h : okIs r vs = true) : r = .ok vs := by
  cases r with
  | ok us => rw [eqbList_eq us vs h]
  | _ => cases h

/-- The first pass returned this value. -/
def valueIs (r : Out Value) (v : Value) : Bool :=
  match r with
  | .ok u => eqb u v
  | _ => false

theorem valueIs_eq {r : Out Value} {v : Value} (h : valueIs r v = true) : r = .ok v := by
  cases r with
  | ok u => rw [eqb_eq u v h]
  | _ => cases h

end OniComb.Hocon
