import Verif.Lemmas.ToysCache
import Verif.Lemmas.CrondCache
import Verif.Props.ToysParse
import Verif.Props.Crond

/-!
# C106: the caches of crond and toys cannot be observed

`cronParserC`, `programC` and `linesC` are the grammars with all their `.cache()` calls; `Parses` leaves open at which
addresses the states lie.
-/

namespace OniComb

open Stateful in
theorem parses_of_follows {A : Type} {P : State Char → Prop} {sp : SParser Unit Char A} {p : Parser Char A}
    (h : Follows P (fun _ _ => True) sp p) (t : List Char) (ht : P ⟨t, 0⟩) (hr : parse p t ≠ .diverge) :
    (∃ o, Parses sp t o) ∧ ∀ o, Parses sp t o → o = parse p t := by
  have hd : p ⟨t, 0⟩ ≠ .diverge := fun e => hr (by unfold parse; rw [e]; rfl)
  obtain ⟨⟨r, σ, h1⟩, h2⟩ := (h ⟨t, 0⟩ ht () trivial).resolve_left hd
  refine ⟨⟨_, r, h1, rfl⟩, ?_⟩
  rintro o ⟨r', h3, rfl⟩
  rw [(h2 r' () h3).1]
  rfl

/-- `CronParser::parse` with its caches: on every text, whatever the addresses are, there is a result and it is the one
of the grammar without caches. -/
theorem c106_crond (t : List Char) : (∃ o, Stateful.Parses Crond.cronParserC t o) ∧
    ∀ o, Stateful.Parses Crond.cronParserC t o → o = Crond.cronParse t := by
  refine parses_of_follows Crond.follows_cron t (.inl rfl) ?_
  rcases Crond.c37_total t with ⟨e, h⟩ | ⟨e, h⟩ <;> unfold Crond.cronParse at h <;> rw [h] <;> simp

/-- `program` of the toys language with its caches: on every text, whatever the addresses are, there is a result and it is
the one of the grammar without caches. -/
theorem c106_program (S : Toys.Parse.Std) (n : Nat) (t : List Char) (hn : t.length < n) :
    (∃ o, Stateful.Parses (Toys.Parse.programC S n) t o) ∧
    ∀ o, Stateful.Parses (Toys.Parse.programC S n) t o → o = parse (Toys.Parse.program S n) t := by
  refine parses_of_follows (Toys.Parse.follows_program t) t rfl ?_
  obtain ⟨⟨e, h⟩, -⟩ := Toys.Parse.c79_total S n t hn
  rw [h]; simp

/-- The same for `lines`. -/
theorem c106_lines (S : Toys.Parse.Std) (n : Nat) (t : List Char) (hn : t.length < n) :
    (∃ o, Stateful.Parses (Toys.Parse.linesC S n) t o) ∧
    ∀ o, Stateful.Parses (Toys.Parse.linesC S n) t o → o = parse (Toys.Parse.lines S n) t := by
  refine parses_of_follows (Toys.Parse.follows_lines t) t rfl ?_
  obtain ⟨-, ⟨e, h⟩ | ⟨e, h⟩⟩ := Toys.Parse.c79_total S n t hn <;> rw [h] <;> simp

/-- A list and a range in the first field: the digits are asked again at the same places by the second alternative. -/
example : ∀ o, Stateful.Parses Crond.cronParserC "5,10-20/2 * * * SUN".toList o →
    o = .ok (.cron (.list [.value 5, .range (.value 10) (.value 20) (.value 2)]) .any .any .any (.value 1)) := by
  have h : Crond.cronParse "5,10-20/2 * * * SUN".toList =
    .ok (.cron (.list [.value 5, .range (.value 10) (.value 20) (.value 2)]) .any .any .any (.value 1)) := rfl
  rw [← h]; exact (c106_crond _).2

/-- A text for which the bound on the depth holds. -/
example : "fn main() { x = 1 + 2; println(x); }".toList.length < 37 := by decide

end OniComb
