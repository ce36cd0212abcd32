import Verif.Props.Hocon
import Verif.Lemmas.HoconEq

/-!
# C58, C59: paths with a dot behind them
-/

namespace OniComb.Hocon
open OniComb OniComb.Hocon.Spec
open OniComb.Uri (Bytes byte bytes)

private theorem joinDot_snoc : ∀ {ss : List Bytes}, ss ≠ [] → joinDot (ss ++ [[]]) = joinDot ss ++ [byte '.']
  | [], h => absurd rfl h
  | [k], _ => by simp [joinDot]
  | k :: k' :: ss, _ => by
    rw [List.cons_append, joinDot_cons (by simp), joinDot_snoc (ss := k' :: ss) (by simp),
      joinDot_cons (s := k) (ss := k' :: ss) (by simp)]
    simp

private theorem checkPath_empty : checkPath [] = .panic := by
  decide +kernel

private theorem getValueN_dot : ∀ (n : Nat) (v : Value) (ss : List Bytes), (∀ s ∈ ss, byte '.' ∉ s) →
    (joinDot (ss ++ [[]])).length < n → (∃ x, descend ss v = some x) → getValueN n v (joinDot (ss ++ [[]])) = .panic
  | 0, _, _, _, h, _ => absurd h (Nat.not_lt_zero _)
  | n + 1, v, ss, hs, h, hd => by
    simp only [getValueN]
    cases hc : checkPath (joinDot (ss ++ [[]])) with
    | panic => rfl
    | diverge => exact absurd hc (checkPath_ne _)
    | ok u =>
      simp only [Out.bind]
      rw [splitDot_joinDot (by simp) (by
        intro s hm
        rcases List.mem_append.1 hm with hm | hm
        · exact hs s hm
        · simp only [List.mem_singleton] at hm; subst hm; simp)]
      cases ss with
      | nil =>
        rw [show joinDot ([] ++ [[]]) = [] from rfl, checkPath_empty] at hc
        cases hc
      | cons k ks =>
        obtain ⟨x, hx⟩ := hd
        cases v with
        | obj es =>
          obtain ⟨y, h1, h2⟩ := Option.bind_eq_some_iff.1 hx
          simp only [List.cons_append, h1]
          rw [if_pos (by simp), joinDot_cons (by simp)]
          rw [show (k ++ byte '.' :: joinDot (ks ++ [[]])).drop (k.length + 1) = joinDot (ks ++ [[]]) by simp]
          rw [List.cons_append, joinDot_cons (by simp)] at h
          exact getValueN_dot n _ ks (fun s hm => hs s (by simp [hm])) (by simp at h; omega) ⟨x, h2⟩
        | _ => cases hx

/-- `get_value` panics for every path to a value with a dot behind it, instead of finding nothing or refusing it. -/
theorem c58_dot_panics (v x : Value) (p : Bytes) (h : Leads v p x) : getValue v (p ++ [byte '.']) = .panic := by
  obtain ⟨ss, hne, hs, rfl, hd⟩ := h
  rw [← joinDot_snoc hne]
  exact getValueN_dot _ _ ss (fun s hm => segment_noDot (hs s hm)) (by omega) ⟨x, hd⟩

/-- So does the resolution of a reference with such a path, mandatory or optional, even if there is an earlier value or a
variable of that name.  The parser accepts
such references, see the example. -/
theorem c59_dot_panics_violated (env : Env) (doc x : Value) (p : Bytes) (prev : Option Value) (o : Bool) (n : Nat) (h : Leads doc p x) :
    resolve env doc (n + 1) (.ref prev (p ++ [byte '.']) o) = .panic := by
  rw [resolve_ref, c58_dot_panics _ _ _ h]
  rfl

private theorem dots_leads : Leads (.obj [(bytes "a", int 1), (bytes "b", .ref none (bytes "a.") false)]) (bytes "a") (int 1) :=
  ⟨[bytes "a"], by simp, by simp [Segment]; decide, rfl, rfl⟩

/-- `a=1`, `b=${a.}`: the parser returns a reference with the path `a.`, and the resolution panics. -/
example : parse (hocon decDigits 3) (bytes "a=1\nb=${a.}") = .ok [.obj [(bytes "a", int 1), (bytes "b", .ref none (bytes "a.") false)]] :=
  okIs_eq (by decide +kernel)

example (env : Env) (n : Nat) : resolve env (.obj [(bytes "a", int 1), (bytes "b", .ref none (bytes "a.") false)]) (n + 1)
    (.ref none (bytes "a.") false) = .panic := c59_dot_panics_violated env _ _ (bytes "a") none false n dots_leads

example : getValue (.obj [(bytes "a", int 1), (bytes "b", .ref none (bytes "a.") false)]) (bytes "a.") = .panic :=
  c58_dot_panics _ _ _ dots_leads

end OniComb.Hocon
