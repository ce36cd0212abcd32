import Verif.Spec.Regex

/-!
# Backtracking finds a match exactly if there is one
-/

namespace OniComb.Rx
variable {t : List Char}

theorem rtg_le {R : Nat → Nat → Prop} (h : ∀ i j, R i j → i ≤ j) {i j : Nat} (hr : Relation.ReflTransGen R i j) :
    i ≤ j := by
  induction hr with
  | refl => exact Nat.le_refl _
  | tail _ h2 ih => exact Nat.le_trans ih (h _ _ h2)

theorem rtg_bound {R : Nat → Nat → Prop} {n : Nat} (h : ∀ i j, R i j → i ≤ n → j ≤ n) {i j : Nat}
    (hr : Relation.ReflTransGen R i j) (hi : i ≤ n) : j ≤ n := by
  induction hr with
  | refl => exact hi
  | tail _ h2 ih => exact h _ _ h2 ih

theorem span_le : ∀ (r : Rx) (i j : Nat), Span t r i j → i ≤ j := by
  intro r
  induction r with
  | eps => intro i j h; exact Nat.le_of_eq h.symm
  | set f => intro i j h; have := h.1; omega
  | bol => intro i j h; have := h.1; omega
  | eol => intro i j h; exact Nat.le_of_eq h.2.symm
  | cat a b iha ihb => intro i j ⟨m, h1, h2⟩; exact Nat.le_trans (iha _ _ h1) (ihb _ _ h2)
  | alt a b iha ihb => intro i j h; exact h.elim (iha _ _) (ihb _ _)
  | star a ih => intro i j h; exact rtg_le ih h
  | plus a ih => intro i j ⟨m, h1, h2⟩; exact Nat.le_trans (ih _ _ h1) (rtg_le ih h2)
  | optional a ih => intro i j h; exact h.elim (ih _ _) fun h => Nat.le_of_eq h.symm
  | group a ih => exact ih

theorem span_bound : ∀ (r : Rx) (i j : Nat), Span t r i j → i ≤ t.length → j ≤ t.length := by
  intro r
  induction r with
  | eps => intro i j h hi; rw [show j = i from h]; exact hi
  | set f =>
    intro i j h hi
    obtain ⟨rfl, c, hc, -⟩ := h
    exact (List.getElem?_eq_some_iff.1 hc).1
  | bol => intro i j h hi; have := h.2; omega
  | eol => intro i j h hi; rw [h.2]; exact hi
  | cat a b iha ihb => intro i j ⟨m, h1, h2⟩ hi; exact ihb _ _ h2 (iha _ _ h1 hi)
  | alt a b iha ihb => intro i j h hi; exact h.elim (iha _ _ · hi) (ihb _ _ · hi)
  | star a ih => intro i j h hi; exact rtg_bound ih h hi
  | plus a ih => intro i j ⟨m, h1, h2⟩ hi; exact rtg_bound ih h2 (ih _ _ h1 hi)
  | optional a ih => intro i j h hi; exact h.elim (ih _ _ · hi) fun h => by rw [h]; exact hi
  | group a ih => exact ih

theorem rounds_sound {m : Nat → (Nat → Option Nat) → Option Nat} {R : Nat → Nat → Prop}
    (hm : ∀ p k e, m p k = some e → ∃ q, R p q ∧ k q = some e) : ∀ (n p : Nat) (k : Nat → Option Nat) (e : Nat),
    rounds m n p k = some e → ∃ q, Relation.ReflTransGen R p q ∧ k q = some e := by
  intro n
  induction n with
  | zero => intro p k e h; exact ⟨p, .refl, h⟩
  | succ n ih =>
    intro p k e h
    unfold rounds at h
    split at h
    · rename_i e' he
      cases h
      obtain ⟨q, hq, hk⟩ := hm _ _ _ he
      split at hk
      · obtain ⟨q', hq', hk'⟩ := ih _ _ _ hk
        exact ⟨q', .head hq hq', hk'⟩
      · cases hk
    · exact ⟨p, .refl, h⟩

theorem go_sound : ∀ (r : Rx) (p : Nat) (k : Nat → Option Nat) (e : Nat), go t r p k = some e →
    ∃ q, Span t r p q ∧ k q = some e := by
  intro r
  induction r with
  | eps => intro p k e h; exact ⟨p, rfl, h⟩
  | set f =>
    intro p k e h
    unfold go at h
    split at h
    · rename_i c hc
      split at h
      · rename_i hf; exact ⟨p + 1, ⟨rfl, c, hc, hf⟩, h⟩
      · cases h
    · cases h
  | bol =>
    intro p k e h
    unfold go at h
    split at h
    · rename_i hp; exact ⟨p, ⟨hp, hp⟩, h⟩
    · cases h
  | eol =>
    intro p k e h
    unfold go at h
    split at h
    · rename_i hp; exact ⟨p, ⟨hp, rfl⟩, h⟩
    · cases h
  | cat a b iha ihb =>
    intro p k e h
    obtain ⟨q, hq, h2⟩ := iha _ _ _ h
    obtain ⟨q', hq', h3⟩ := ihb _ _ _ h2
    exact ⟨q', ⟨q, hq, hq'⟩, h3⟩
  | alt a b iha ihb =>
    intro p k e h
    unfold go at h
    split at h
    · rename_i e' he
      cases h
      obtain ⟨q, hq, hk⟩ := iha _ _ _ he
      exact ⟨q, .inl hq, hk⟩
    · obtain ⟨q, hq, hk⟩ := ihb _ _ _ h
      exact ⟨q, .inr hq, hk⟩
  | star a ih => intro p k e h; exact rounds_sound ih _ _ _ _ h
  | plus a ih =>
    intro p k e h
    obtain ⟨q, hq, h2⟩ := ih _ _ _ h
    obtain ⟨q', hq', h3⟩ := rounds_sound ih _ _ _ _ h2
    exact ⟨q', ⟨q, hq, hq'⟩, h3⟩
  | optional a ih =>
    intro p k e h
    unfold go at h
    split at h
    · rename_i e' he
      cases h
      obtain ⟨q, hq, hk⟩ := ih _ _ _ he
      exact ⟨q, .inl hq, hk⟩
    · exact ⟨p, .inr rfl, h⟩
  | group a ih => exact ih

theorem rounds_complete {m : Nat → (Nat → Option Nat) → Option Nat} {R : Nat → Nat → Prop} {len : Nat}
    (hm : ∀ p q k, p ≤ len → R p q → (k q).isSome → (m p k).isSome) (hle : ∀ p q, R p q → p ≤ q)
    (hb : ∀ p q, R p q → p ≤ len → q ≤ len) {k : Nat → Option Nat} {j : Nat} (hk : (k j).isSome) {i : Nat}
    (hr : Relation.ReflTransGen R i j) : ∀ n, len - i ≤ n → i ≤ len → (rounds m n i k).isSome := by
  induction hr using Relation.ReflTransGen.head_induction_on with
  | refl =>
    intro n _ _
    cases n with
    | zero => exact hk
    | succ n =>
      unfold rounds
      split
      · rfl
      · exact hk
  | head h1 h2 ih =>
    rename_i p q
    intro n hn hp
    by_cases hpq : p = q
    · subst hpq; exact ih n hn hp
    · have := hle _ _ h1
      have hq := hb _ _ h1 hp
      cases n with
      | zero => omega
      | succ n =>
        have h3 := hm p q (fun q => if p < q then rounds m n q k else none) hp h1
          (by rw [if_pos (by omega)]; exact ih n (by omega) hq)
        unfold rounds
        split
        · rfl
        · rename_i he; rw [he] at h3; cases h3

theorem go_complete : ∀ (r : Rx) (i j : Nat) (k : Nat → Option Nat), i ≤ t.length → Span t r i j → (k j).isSome →
    (go t r i k).isSome := by
  intro r
  induction r with
  | eps => intro i j k hi h hk; rw [show j = i from h] at hk; exact hk
  | set f =>
    intro i j k hi h hk
    obtain ⟨rfl, c, hc, hf⟩ := h
    unfold go
    rw [hc]
    simp only [hf, if_true]
    exact hk
  | bol => intro i j k hi h hk; obtain ⟨rfl, rfl⟩ := h; exact hk
  | eol =>
    intro i j k hi h hk
    obtain ⟨rfl, rfl⟩ := h
    unfold go
    rw [if_pos rfl]
    exact hk
  | cat a b iha ihb =>
    intro i j k hi h hk
    obtain ⟨m, h1, h2⟩ := h
    exact iha _ _ _ hi h1 (ihb _ _ _ (span_bound _ _ _ h1 hi) h2 hk)
  | alt a b iha ihb =>
    intro i j k hi h hk
    unfold go
    split
    · rfl
    · rename_i he
      rcases h with h | h
      · have := iha _ _ _ hi h hk; rw [he] at this; cases this
      · exact ihb _ _ _ hi h hk
  | star a ih =>
    intro i j k hi h hk
    exact rounds_complete (fun p q k hp => ih p q k hp) (span_le a) (span_bound a) hk h _ (Nat.le_refl _) hi
  | plus a ih =>
    intro i j k hi h hk
    obtain ⟨m, h1, h2⟩ := h
    exact ih _ _ _ hi h1 (rounds_complete (fun p q k hp => ih p q k hp) (span_le a) (span_bound a) hk h2 _
      (Nat.le_refl _) (span_bound _ _ _ h1 hi))
  | optional a ih =>
    intro i j k hi h hk
    unfold go
    split
    · rfl
    · rename_i he
      rcases h with h | h
      · have := ih _ _ _ hi h hk; rw [he] at this; cases this
      · rw [← show j = i from h]; exact hk
  | group a ih => exact ih

/-- What `search` returns is a match. -/
theorem search_sound {r : Rx} {a b : Nat} (h : search r t = some (a, b)) :
    Span t r a b ∧ a ≤ b ∧ b ≤ t.length := by
  obtain ⟨p, hp, h2⟩ := List.exists_of_findSome?_eq_some h
  cases hg : go t r p some with
  | none => rw [hg] at h2; cases h2
  | some e =>
    rw [hg] at h2
    simp only [Option.map_some, Option.some.injEq, Prod.mk.injEq] at h2
    obtain ⟨rfl, rfl⟩ := h2
    obtain ⟨q, hq, hqe⟩ := go_sound _ _ _ _ hg
    cases hqe
    have := List.mem_range.1 hp
    exact ⟨hq, span_le _ _ _ hq, span_bound _ _ _ hq (by omega)⟩

/-- Nothing is found only if there is nothing. -/
theorem search_none {r : Rx} (h : search r t = none) (i j : Nat) (hi : i ≤ t.length) : ¬ Span t r i j := by
  intro hs
  have := List.findSome?_eq_none_iff.1 h i (List.mem_range.2 (by omega))
  have hg := go_complete r i j some hi hs rfl
  cases he : go t r i some with
  | none => rw [he] at hg; cases hg
  | some e => rw [he] at this; cases this

/-- The match found is the leftmost. -/
theorem search_leftmost {r : Rx} {a b : Nat} (h : search r t = some (a, b)) (i j : Nat) (hi : i < a) :
    ¬ Span t r i j := by
  intro hs
  have hl := (search_sound h)
  obtain ⟨l1, x, l2, he, hx, hn⟩ := List.findSome?_eq_some_iff.1 h
  have hxa : x = a := by
    cases hg : go t r x some with
    | none => rw [hg] at hx; cases hx
    | some e => rw [hg] at hx; simp only [Option.map_some, Option.some.injEq, Prod.mk.injEq] at hx; exact hx.1
  subst hxa
  have hmem : i ∈ l1 := by
    have h1 : l1.length = x := by
      have := congrArg (fun l => l[l1.length]?) he
      simp only [List.getElem?_append_right (Nat.le_refl _), Nat.sub_self, List.getElem?_cons_zero] at this
      have := List.getElem?_eq_some_iff.1 this
      obtain ⟨h3, h4⟩ := this
      rw [List.getElem_range] at h4
      exact h4
    have h2 : (List.range (t.length + 1))[i]? = l1[i]? := by
      rw [he, List.getElem?_append_left (by omega)]
    rw [List.getElem?_range (by omega)] at h2
    exact List.mem_of_getElem? h2.symm
  have h2 := hn i hmem
  have hg := go_complete r i j some (by omega) hs rfl
  cases he : go t r i some with
  | none => rw [he] at hg; cases hg
  | some e => rw [he] at h2; cases h2

theorem search_at_zero {r : Rx} {j : Nat} (h : Span t r 0 j) : ∃ b, search r t = some (0, b) ∧ go t r 0 some = some b := by
  have hg := go_complete r 0 j some (Nat.zero_le _) h rfl
  cases he : go t r 0 some with
  | none => rw [he] at hg; cases hg
  | some e =>
    refine ⟨e, ?_, rfl⟩
    unfold search
    rw [List.range_succ_eq_map, List.findSome?_cons, he]
    rfl

/-! ## Putting `^` in front -/

theorem anchor_of_one {r : Rx} (h : OneBranch r) : r.anchor = .cat .bol r := by
  cases r <;> first | rfl | exact h.elim

theorem plainBol_span : ∀ {r : Rx}, PlainBol r → r.startsBol = true → ∀ {i j : Nat}, Span t r i j → i = 0 := by
  intro r
  induction r with
  | bol => intro _ _ i j h; exact h.1
  | cat a b iha _ => intro hp hs i j ⟨m, h1, _⟩; exact iha hp hs h1
  | eps => intro hp hs; exact absurd hs (by decide)
  | set f => intro hp hs; exact absurd hs (by simp [startsBol])
  | eol => intro hp hs; exact absurd hs (by decide)
  | group a _ => intro hp hs; exact absurd hs (by simp [startsBol])
  | alt a b _ _ => intro hp hs; rw [show _ = false from hp] at hs; cases hs
  | star a _ => intro hp hs; rw [show _ = false from hp] at hs; cases hs
  | plus a _ => intro hp hs; rw [show _ = false from hp] at hs; cases hs
  | optional a _ => intro hp hs; rw [show _ = false from hp] at hs; cases hs

/-- A pattern without alternatives outside parentheses is tied to the current position. -/
theorem span_compiled {r : Rx} (h1 : OneBranch r) (h2 : PlainBol r) (i j : Nat) :
    Span t r.compiled i j ↔ i = 0 ∧ Span t r 0 j := by
  unfold compiled
  by_cases hs : r.startsBol
  · rw [if_pos hs]
    constructor
    · intro h
      have := plainBol_span h2 hs h
      subst this
      exact ⟨rfl, h⟩
    · rintro ⟨rfl, h⟩; exact h
  · rw [if_neg hs, anchor_of_one h1]
    constructor
    · rintro ⟨m, ⟨rfl, rfl⟩, h⟩; exact ⟨rfl, h⟩
    · rintro ⟨rfl, h⟩; exact ⟨0, ⟨rfl, rfl⟩, h⟩

/-- Of several alternatives, those behind the first are not tied to anything. -/
theorem span_alt (a b : Rx) (i j : Nat) (h : Span t b i j) : Span t (alt a b).compiled i j := by
  unfold compiled
  split
  · exact .inr h
  · exact .inr h

/-- Putting `^` in front invents no matches. -/
theorem span_anchor : ∀ {r : Rx} {i j : Nat}, Span t r.anchor i j → Span t r i j := by
  intro r
  induction r with
  | alt a b iha _ => intro i j h; exact h.imp iha id
  | _ => intro i j h; obtain ⟨m, ⟨rfl, rfl⟩, h⟩ := h; exact h

theorem span_of_compiled {r : Rx} {i j : Nat} (h : Span t r.compiled i j) : Span t r i j := by
  unfold compiled at h
  split at h
  · exact h
  · exact span_anchor h

/-- At the current position itself nothing is lost either. -/
theorem anchor_span : ∀ {r : Rx} {j : Nat}, Span t r 0 j → Span t r.anchor 0 j := by
  intro r
  induction r with
  | alt a b iha _ => intro j h; exact h.imp iha id
  | _ => intro j h; exact ⟨0, ⟨rfl, rfl⟩, h⟩

theorem compiled_span {r : Rx} {j : Nat} (h : Span t r 0 j) : Span t r.compiled 0 j := by
  unfold compiled
  split
  · exact h
  · exact anchor_span h

theorem search_one {r : Rx} (h1 : OneBranch r) (h2 : PlainBol r) (t : List Char) :
    r.compiled.search t = (go t r 0 some).map fun e => (0, e) := by
  cases hg : go t r 0 some with
  | none =>
    cases hs : r.compiled.search t with
    | none => rfl
    | some x =>
      obtain ⟨a, b⟩ := x
      obtain ⟨rfl, h⟩ := (span_compiled h1 h2 _ _).1 (search_sound hs).1
      have := go_complete r 0 b some (Nat.zero_le _) h rfl
      rw [hg] at this
      cases this
  | some e =>
    obtain ⟨q, hq, hqe⟩ := go_sound _ _ _ _ hg
    cases hqe
    obtain ⟨b, hb, hgb⟩ := search_at_zero (compiled_span hq)
    have : go t r.compiled 0 some = go t r 0 some := by
      unfold compiled
      split
      · rfl
      · rw [anchor_of_one h1]; rfl
    rw [hgb, hg] at this
    cases this
    rw [hb]
    rfl

/-! ## Repeated characters -/

theorem go_set (f : Char → Bool) (p : Nat) (k : Nat → Option Nat) : go t (.set f) p k =
    match t.drop p with
    | c :: _ => if f c then k (p + 1) else none
    | [] => none := by
  unfold go
  cases h : t.drop p with
  | nil =>
    have : t[p]? = none := by
      rw [← List.head?_drop, h]; rfl
    rw [this]
  | cons c r =>
    have : t[p]? = some c := by
      rw [← List.head?_drop, h]; rfl
    rw [this]

theorem rounds_set (f : Char → Bool) (k : Nat → Option Nat) : ∀ (n p : Nat), t.length - p ≤ n →
    (k (p + ((t.drop p).takeWhile f).length)).isSome →
    rounds (go t (.set f)) n p k = k (p + ((t.drop p).takeWhile f).length) := by
  intro n
  induction n with
  | zero =>
    intro p hn hk
    rw [List.drop_eq_nil_of_le (by omega)]
    rfl
  | succ n ih =>
    intro p hn hk
    unfold rounds
    rw [go_set]
    cases h : t.drop p with
    | nil => rfl
    | cons c r =>
      have hd : t.drop (p + 1) = r := by
        rw [Nat.add_comm, ← List.drop_drop, List.drop_drop, Nat.add_comm, ← List.drop_drop, h]; rfl
      rw [h] at hk
      dsimp only
      rw [List.takeWhile_cons] at hk ⊢
      by_cases hf : f c
      · rw [if_pos hf] at hk ⊢
        rw [if_pos hf, if_pos (Nat.lt_succ_self p)]
        have e : p + (c :: r.takeWhile f).length = p + 1 + ((t.drop (p + 1)).takeWhile f).length := by
          rw [hd, List.length_cons]; omega
        rw [e] at hk ⊢
        rw [ih (p + 1) (by omega) hk]
        split
        · rename_i h3; exact h3.symm
        · rename_i h3; rw [h3] at hk; cases hk
      · rw [if_neg hf]
        rw [if_neg hf]
        rfl

theorem go_star_set (f : Char → Bool) (p : Nat) (k : Nat → Option Nat)
    (hk : (k (p + ((t.drop p).takeWhile f).length)).isSome) :
    go t (.star (.set f)) p k = k (p + ((t.drop p).takeWhile f).length) :=
  rounds_set f k _ p (Nat.le_refl _) hk

theorem go_plus_set (f : Char → Bool) (p : Nat) (k : Nat → Option Nat)
    (hk : (k (p + ((t.drop p).takeWhile f).length)).isSome) : go t (.plus (.set f)) p k =
    if ((t.drop p).takeWhile f).length = 0 then none else k (p + ((t.drop p).takeWhile f).length) := by
  unfold go
  rw [go_set]
  cases h : t.drop p with
  | nil => rfl
  | cons c r =>
    have hd : t.drop (p + 1) = r := by
      rw [Nat.add_comm, ← List.drop_drop, List.drop_drop, Nat.add_comm, ← List.drop_drop, h]; rfl
    rw [h] at hk
    dsimp only
    rw [List.takeWhile_cons] at hk ⊢
    by_cases hf : f c
    · rw [if_pos hf] at hk ⊢
      rw [if_pos hf]
      have e : p + (c :: r.takeWhile f).length = p + 1 + ((t.drop (p + 1)).takeWhile f).length := by
        rw [hd, List.length_cons]; omega
      rw [e] at hk ⊢
      rw [rounds_set f k _ _ (Nat.le_refl _) hk, if_neg (by simp)]
    · rw [if_neg hf, if_neg hf]
      rfl

end OniComb.Rx
