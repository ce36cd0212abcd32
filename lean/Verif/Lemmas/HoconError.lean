import Verif.Lemmas.HoconMisread

/-! # Helper lemmas: where the parser for configuration documents stops -/

namespace OniComb.Hocon
open OniComb OniComb.Hocon.Spec OniComb.Hocon.Spec.Layout
open OniComb.Uri (Bytes byte bytes)

variable {A B : Type} {t rest r : Bytes} {S : Std}

/-- Never a failure. -/
def Firm (p : Parser UInt8 A) : Prop := ∀ s e c, p s ≠ .failure e c

theorem firm_many0 (p : Parser UInt8 A) : Firm (many0 p) := fun s e c => c12_many0_never_fails p s e c

theorem firm_or {p q : Parser UInt8 A} (hp : ∀ s e, p s ≠ .failure e .committed) (hq : Firm q) : Firm (or p q) := by
  intro s e c h
  unfold or at h
  split at h
  · exact hq s e c h
  · rename_i h2
    cases c with
    | committed => exact hp s e h
    | uncommitted => exact h2 e h

theorem soft_attempt (p : Parser UInt8 A) : ∀ s e, attempt p s ≠ .failure e .committed := by
  intro s e h
  unfold attempt Res.withUncommitted at h
  split at h
  · cases h
  · rename_i h2; exact h2 _ h

theorem soft_or {p q : Parser UInt8 A} (hp : ∀ s e, p s ≠ .failure e .committed) (hq : ∀ s e, q s ≠ .failure e .committed) :
    ∀ s e, or p q s ≠ .failure e .committed := by
  intro s e h
  unfold or at h
  split at h
  · exact hq s e h
  · exact hp s e h

theorem firm_collect {p : Parser UInt8 A} (hp : Firm p) : Firm (collect p) := by
  intro s e c h
  unfold collect at h
  split at h
  · unfold State.withSlice at h; split at h <;> cases h
  · rename_i h2; exact hp _ _ _ h2
  · cases h
  · cases h

theorem firm_discard {p : Parser UInt8 A} (hp : Firm p) : Firm (discard p) := by
  intro s e c h
  unfold discard at h
  split at h
  · cases h
  · rename_i h2; exact hp _ _ _ h2
  · cases h
  · cases h

theorem firm_skipLeft {p : Parser UInt8 A} {q : Parser UInt8 B} (hp : Firm p) (hq : Firm q) : Firm (skipLeft p q) := by
  intro s e c h
  unfold skipLeft at h
  split at h
  · split at h
    · cases h
    · rename_i h2; exact hq _ _ _ h2
    · cases h
    · cases h
  · rename_i h2; exact hp _ _ _ h2
  · cases h
  · cases h

theorem firm_config (cv : Parser UInt8 Value) (prop : Parser UInt8 (Bytes × Value)) : Firm (config cv prop) :=
  firm_or (soft_or (soft_attempt _) (soft_attempt _)) (firm_many0 _)

theorem firm_spaceOrComment : Firm spaceOrComment :=
  firm_discard (firm_or (soft_attempt _) (firm_collect (firm_many0 _)))

/-- The only error of `skip_right` with `end` behind a parser that does not fail. -/
theorem end_err {p : Parser UInt8 A} (hp : Firm p) {e : PError UInt8} (h : parse (skipRight p end_) t = .err e) :
    ∃ v off, p ⟨t, 0⟩ = .success v off ∧ off < t.length ∧ e = .mismatch (t.drop off) (off + 1) 1 := by
  unfold parse skipRight at h
  split at h
  · rename_i v off h1
    refine ⟨v, off, h1, ?_⟩
    unfold end_ State.withInput State.advanceBy at h
    simp only [Nat.zero_add] at h
    by_cases ho : off ≤ t.length
    · rw [if_pos ho] at h
      cases hd : t.drop off with
      | nil => rw [hd] at h; cases h
      | cons b r =>
        rw [hd] at h
        simp only [Res.advanceSuccess, Res.toOut, Res.Out.err.injEq] at h
        have := congrArg List.length hd
        rw [List.length_drop, List.length_cons] at this
        exact ⟨by omega, h.symm⟩
    · rw [if_neg ho] at h; cases h
  · rename_i h1; exact absurd h1 (hp _ _ _)
  · cases h
  · cases h

/-- The converse. -/
theorem end_stop {p : Parser UInt8 A} {v : A} (h : Eats p t v rest) (hr : rest ≠ []) :
    parse (skipRight p end_) (t ++ rest) = .err (.mismatch rest (t.length + 1) 1) := by
  unfold parse skipRight
  unfold Eats at h
  rw [h]
  unfold end_ State.withInput State.advanceBy
  simp only [Nat.zero_add, List.length_append, Nat.le_add_right, if_true, List.drop_left]
  cases rest with
  | nil => exact absurd rfl hr
  | cons b r => rfl

/-- Settings are read up to something that is not one. -/
theorem settings_stop {es : Entries} {g x : Bytes} (hg : Gap g) (hne : es ≠ []) (hm : Members S.parseDecimal false es t x)
    (hq : Quiet x) (hf : ∀ n, ∃ c, Fail (softGrammar S (n + 1)).2 x c) (hx : x ≠ []) :
    ∃ N, ∀ n, N ≤ n → parse (hocon S n) (g ++ t ++ x) = .err (.mismatch x ((g ++ t).length + 1) 1) := by
  obtain ⟨N, hN⟩ := members_reads hm hq (by simp)
  refine ⟨N + 1, fun n hn => ?_⟩
  obtain ⟨m, rfl⟩ : ∃ m, n = m + 1 := ⟨n - 1, by omega⟩
  refine parse_soft ?_ (by simp)
  unfold softHocon
  have h2 : Eats (many1 (softGrammar S (m + 1)).2) t es x := eats_many1.2 ⟨hne, (hN (m + 1) (by omega)).many, hf m⟩
  refine end_stop (v := [.obj (configFold es)]) (Eats.skipLeft (p := spaceOrComment) (eats_gap hg (members_quiet hm hq)) ?_) hx
  unfold config
  exact .or_left (.or_left (h2.map (fun ps => [Value.obj (configFold ps)])).attempt)

end OniComb.Hocon
