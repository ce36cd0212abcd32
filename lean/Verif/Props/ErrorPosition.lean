import Verif.Spec.ErrorPosition
import Verif.Props.PegLanguage

/-!
# C138: does a syntax error name the first element that cannot be right?

Single elements count from 1 in the offset that an error displays (`elm_pred`, `end`); one behind the end of the text
if it ends too early.
-/

namespace OniComb.Peg
open OniComb
variable {I N : Type} {G : N → Exp I N} {follow : N → I → Prop} {F : I → Prop} [DecidableEq I]

/-- What is true of the result of an expression at a place: `t` is the rest of the text, `o` the place. -/
def Says (G : N → Exp I N) (e : Exp I N) (F : I → Prop) (t : List I) (o : Nat) : Res I Unit → Prop
  | .success _ m => m < t.length → ¬Viable G e (t.take (m + 1))
  | .failure er c => ∃ k, k ≤ t.length ∧ er.offset? = some (o + k + 1) ∧ (c = .committed ↔ k ≠ 0) ∧ Viable G e (t.take k) ∧
      (k < t.length → ∀ v z, Lang G e v → (∀ c u, z = c :: u → F c) → ¬t.take (k + 1) <+: v ++ z)
  | _ => True

omit [DecidableEq I] in
theorem lang_of_direct : ∀ (e : Exp I N), e.Direct G → ∃ w, Lang G e w
  | .empty, _ => ⟨_, .empty⟩
  | .elem _, ⟨_, h⟩ => ⟨_, .elem h⟩
  | .seq a b, h => by
    obtain ⟨v, hv⟩ := lang_of_direct a h.1
    obtain ⟨w, hw⟩ := lang_of_direct b h.2
    exact ⟨_, .seq hv hw⟩
  | .alt a b, h => by
    obtain ⟨v, hv⟩ := lang_of_direct a h.1
    exact ⟨_, .altLeft b hv⟩
  | .star _, _ => ⟨_, .starNone _⟩
  | .opt _, _ => ⟨_, .optNone _⟩
  | .rule _, ⟨_, h⟩ => ⟨_, .rule h⟩
  | .text _, h => h.elim
  | .plus _, h => h.elim
  | .not _, h => h.elim
  | .look _, h => h.elim

omit [DecidableEq I] in
theorem lang_seq {a b : Exp I N} {w : List I} (h : Lang G (.seq a b) w) : ∃ u v, w = u ++ v ∧ Lang G a u ∧ Lang G b v := by
  cases h with
  | seq ha hb => exact ⟨_, _, rfl, ha, hb⟩

omit [DecidableEq I] in
theorem lang_alt {a b : Exp I N} {w : List I} (h : Lang G (.alt a b) w) : Lang G a w ∨ Lang G b w := by
  cases h with
  | altLeft _ h => exact .inl h
  | altRight _ h => exact .inr h

omit [DecidableEq I] in
theorem lang_elem {f : I → Bool} {w : List I} (h : Lang G (.elem f) w) : ∃ c, w = [c] ∧ f c = true := by
  cases h with
  | elem h => exact ⟨_, rfl, h⟩

omit [DecidableEq I] in
theorem lang_star_elem {f : I → Bool} {e : Exp I N} {w : List I} (h : Lang G e w) (he : e = .star (.elem f)) :
    ∀ c ∈ w, f c = true := by
  induction h with
  | starNone a => simp
  | starMore ha _ _ ih =>
    cases he
    obtain ⟨c, rfl, hc⟩ := lang_elem ha
    intro d hd
    rcases List.mem_append.1 hd with hd | hd
    · rw [List.mem_singleton.1 hd]; exact hc
    · exact ih rfl d hd
  | _ => cases he

omit [DecidableEq I] in
theorem next_of_seq {b : Exp I N} {v z : List I} (hv : Lang G b v) (hz : ∀ c u, z = c :: u → F c) :
    ∀ c u, v ++ z = c :: u → Starts G c b ∨ (MayEmpty G b ∧ F c) := by
  intro c u h
  cases v with
  | nil => exact .inr ⟨mayEmpty_of_lang hv rfl, hz c u h⟩
  | cons d v =>
    cases h
    exact .inl (starts_of_lang hv rfl)

omit [DecidableEq I] in
/-- The one place where the text may be divided: if the first part of a sequence reads `m` elements, then in every text
of the sequence that agrees with the text so far and one more element, the first part has these `m` elements. -/
theorem divides (hG : GrammarLL1 G follow) {a : Exp I N} {Fa : I → Prop} (ha : a.LL1 G follow Fa) {t : List I} {m j : Nat}
    (hm : m + j < t.length) (hl : Lang G a (t.take m)) (hs : ¬Viable G a (t.take (m + 1))) {v y : List I} (hv : Lang G a v)
    (hy : ∀ c u, y = c :: u → Fa c) (hp : t.take (m + j + 1) <+: v ++ y) :
    v = t.take m ∧ (t.drop m).take (j + 1) <+: y := by
  have split : t.take (m + j + 1) = t.take m ++ (t.drop m).take (j + 1) := by rw [Nat.add_assoc, List.take_add]
  have hlen : (t.take m).length = m := by simp; omega
  have h1 : t.take (m + 1) <+: v ++ y := (List.take_prefix_take_left (by omega)).trans hp
  have key : v = t.take m := by
    rcases Nat.lt_or_ge m v.length with h | h
    · exfalso
      have : t.take (m + 1) <+: v := List.prefix_of_prefix_length_le h1 (List.prefix_append _ _) (by simp; omega)
      obtain ⟨u, rfl⟩ := this
      exact hs ⟨u, hv⟩
    · have h0 : t.take m <+: v ++ y := (List.take_prefix_take_left (by omega)).trans hp
      have hvp : v <+: t.take m := List.prefix_of_prefix_length_le (List.prefix_append _ _) h0 (by omega)
      obtain ⟨r, hr⟩ := hvp
      have hry : r <+: y := by
        rw [← hr] at h0
        exact (List.prefix_append_right_inj v).1 h0
      refine c135_unambiguous G follow hG Fa a ha v r (t.take m) [] hv hl (by simpa using hr) ?_ nofun
      rintro c u rfl
      obtain ⟨y', rfl⟩ := hry
      exact hy c _ rfl
  refine ⟨key, ?_⟩
  rw [split, key] at hp
  exact (List.prefix_append_right_inj _).1 hp

theorem says_of_rules (hG : GrammarLL1 G follow) (n : Nat)
    (hr : ∀ (x : N) {F : I → Prop}, (∀ c, F c → follow x c) → ∀ s : State I, s.offset ≤ s.input.length →
      Says G (.rule x) F (s.input.drop s.offset) s.offset (bareRules true G n x s)) : ∀ (e : Exp I N) {F : I → Prop},
    e.LL1 G follow F → e.Direct G → ∀ s : State I, s.offset ≤ s.input.length →
      Says G e F (s.input.drop s.offset) s.offset (bareOf true G n e s)
  | .empty, F, _, _, s, hs => by
    rintro hm ⟨u, hu⟩
    cases hd : s.input.drop s.offset with
    | nil => rw [hd] at hm; exact absurd hm (by simp)
    | cons c t => rw [hd] at hu; generalize hw : List.take (0 + 1) (c :: t) ++ u = w at hu; cases hu; simp at hw
  | .elem f, F, _, ⟨c0, h0⟩, s, hs => by
    have hv : Viable G (.elem f : Exp I N) [] := ⟨[c0], .elem h0⟩
    simp only [bareOf, Exp.bare, discard, elmPred, State.withInput, hs, if_true]
    cases hd : s.input.drop s.offset with
    | nil => exact ⟨0, by simp, rfl, by simp, hv, by simp⟩
    | cons c t =>
      by_cases hc : f c = true
      · simp only [hc, if_true]
        rintro hm ⟨u, hu⟩
        obtain ⟨d, hd, -⟩ := lang_elem hu
        cases t with
        | nil => simp at hm
        | cons e t => simp at hd
      · simp only [hc]
        refine ⟨0, by simp, rfl, by simp, hv, fun _ v z hv' _ hp => hc ?_⟩
        obtain ⟨d, rfl, hd⟩ := lang_elem hv'
        obtain ⟨u, hu⟩ := hp
        simp only [List.take_succ_cons, List.take_zero, List.cons_append, List.cons.injEq] at hu
        rw [hu.1]; exact hd
  | .seq a b, F, he, hd, s, hs => by
    have iha := says_of_rules hG n hr a he.1 hd.1 s hs
    have hb : (bareOf true G n (.seq a b)) = flatMap (bareOf true G n a) fun _ => bareOf true G n b := by
      simp [bareOf, Exp.bare]
    rw [hb, flatMap]
    cases ha : bareOf true G n a s with
    | panic => trivial
    | diverge => trivial
    | failure er c =>
      rw [ha] at iha
      obtain ⟨k, h1, h2, h3, ⟨u, hu⟩, h5⟩ := iha
      obtain ⟨w, hw⟩ := lang_of_direct b hd.2
      refine ⟨k, h1, h2, h3, ⟨u ++ w, by rw [← List.append_assoc]; exact .seq hu hw⟩, fun hk v z hv hz hp => ?_⟩
      obtain ⟨va, vb, rfl, hva, hvb⟩ := lang_seq hv
      rw [List.append_assoc] at hp
      exact h5 hk va (vb ++ z) hva (next_of_seq hvb hz) hp
    | success x m =>
      rw [ha] at iha
      have hm := bareOf_bounds hs ha
      have hla := lang_of_bare (fun x => (hG.rules x).blind) n a he.1.blind s m hs ha
      have hlen : (s.input.drop s.offset).length = s.input.length - s.offset := List.length_drop
      have ihb := says_of_rules hG n hr b he.2 hd.2 (s.advanceBy m) hm
      have hdrop : (s.advanceBy m).input.drop (s.advanceBy m).offset = (s.input.drop s.offset).drop m := by
        simp [State.advanceBy, List.drop_drop]
      rw [hdrop] at ihb
      generalize s.input.drop s.offset = t at *
      show Says G (.seq a b) F t s.offset (((bareOf true G n b (s.advanceBy m)).addCommit (m != 0)).advanceSuccess m)
      cases hbr : bareOf true G n b (s.advanceBy m) with
      | panic => trivial
      | diverge => trivial
      | success y j =>
        rw [hbr] at ihb
        simp only [Res.addCommit, Res.advanceSuccess]
        rintro hj ⟨u, hu⟩
        rw [Nat.add_comm j m] at hj hu
        obtain ⟨va, vb, h, hva, hvb⟩ := lang_seq hu
        have hp : t.take (m + j + 1) <+: va ++ vb := ⟨u, h⟩
        have hnext := next_of_seq (F := F) (z := []) hvb nofun
        rw [List.append_nil] at hnext
        obtain ⟨-, hpb⟩ := divides hG he.1 hj hla (iha (by omega)) hva hnext hp
        obtain ⟨r, rfl⟩ := hpb
        exact ihb (by simp; omega) ⟨r, hvb⟩
      | failure er c =>
        rw [hbr] at ihb
        obtain ⟨k, h1, h2, h3, ⟨u, hu⟩, h5⟩ := ihb
        have h1' : k ≤ t.length - m := by simpa using h1
        simp only [Res.addCommit, Res.advanceSuccess]
        refine ⟨m + k, by omega, by rw [h2]; simp only [State.advanceBy, Option.some.injEq]; omega, ?_, ⟨u, ?_⟩, ?_⟩
        · by_cases h0 : m = 0
          · have : (m != 0) = false := by simp [h0]
            rw [this, h0, Nat.zero_add]
            cases c <;> exact h3
          · have : (m != 0) = true := by simp [h0]
            rw [this]
            cases c <;> simp [Committed.or, Committed.ofBool, h0]
        · rw [List.take_add, List.append_assoc]
          exact .seq hla hu
        · intro hk v z hv hz hp
          obtain ⟨va, vb, rfl, hva, hvb⟩ := lang_seq hv
          rw [List.append_assoc] at hp
          obtain ⟨-, hpb⟩ := divides hG he.1 hk hla (iha (by omega)) hva (next_of_seq hvb hz) hp
          exact h5 (by simp; omega) vb z hvb hz hpb
  | .alt a b, F, he, hd, s, hs => by
    obtain ⟨hea, heb, hne, hdis, hF⟩ := he
    have iha := says_of_rules hG n hr a hea hd.1 s hs
    have ihb := says_of_rules hG n hr b heb hd.2 s hs
    have hor : (bareOf true G n (.alt a b)) = or (bareOf true G n a) (bareOf true G n b) := rfl
    rw [hor, or]
    cases ha : bareOf true G n a s with
    | panic => trivial
    | diverge => trivial
    | success x m =>
      rw [ha] at iha
      have hm := bareOf_bounds hs ha
      have hla := lang_of_bare (fun x => (hG.rules x).blind) n a hea.blind s m hs ha
      generalize s.input.drop s.offset = t at *
      rintro hm ⟨u, hu⟩
      rcases lang_alt hu with hu | hu
      · exact iha hm ⟨u, hu⟩
      · cases t with
        | nil => simp at hm
        | cons c t =>
          have hm0 : m ≠ 0 := by rintro rfl; exact hne (mayEmpty_of_lang hla (by simp))
          obtain ⟨m, rfl⟩ : ∃ j, m = j + 1 := ⟨m - 1, by omega⟩
          exact hdis c (starts_of_lang hla (by rw [List.take_succ_cons])) (starts_of_lang hu (by rw [List.take_succ_cons, List.cons_append]))
    | failure er c =>
      rw [ha] at iha
      obtain ⟨k, h1, h2, h3, h4, h5⟩ := iha
      cases c with
      | committed =>
        have hk0 := h3.1 rfl
        refine ⟨k, h1, h2, h3, ?_, fun hk v z hv hz hp => ?_⟩
        · obtain ⟨u, hu⟩ := h4
          exact ⟨u, .altLeft b hu⟩
        · rcases lang_alt hv with hv | hv
          · exact h5 hk v z hv hz hp
          · generalize s.input.drop s.offset = t at *
            cases t with
            | nil => simp at hk
            | cons d t =>
              obtain ⟨k, rfl⟩ : ∃ j, k = j + 1 := ⟨k - 1, by omega⟩
              obtain ⟨u, hu⟩ := h4
              have hsa : Starts G d a := starts_of_lang hu (by rw [List.take_succ_cons, List.cons_append])
              obtain ⟨r, hr⟩ := hp
              rw [List.take_succ_cons, List.cons_append] at hr
              rcases next_of_seq hv hz d _ hr.symm with h | ⟨h, h'⟩
              · exact hdis d hsa h
              · exact hF h d hsa h'
      | uncommitted =>
        have hk0 : k = 0 := by
          by_cases h : k = 0
          · exact h
          · exact absurd (h3.2 h) (by simp)
        subst hk0
        have noStart : ∀ v, Lang G a v → 0 < (s.input.drop s.offset).length → ∀ z, ¬(s.input.drop s.offset).take 1 <+: v ++ z := by
          intro v hv h0 z hp
          refine h5 h0 v [] hv nofun ?_
          rw [List.append_nil]
          have hv0 : v ≠ [] := fun h => hne (mayEmpty_of_lang hv h)
          exact List.prefix_of_prefix_length_le hp (List.prefix_append _ _)
            (by have := List.length_pos_iff.2 hv0; simp; omega)
        simp only
        cases hb : bareOf true G n b s with
        | panic => trivial
        | diverge => trivial
        | success x m =>
          rw [hb] at ihb
          rintro hm ⟨u, hu⟩
          rcases lang_alt hu with hu | hu
          · refine noStart _ hu (by omega) [] ?_
            rw [List.append_nil]
            exact (List.take_prefix_take_left (by omega)).trans (List.prefix_append _ _)
          · exact ihb hm ⟨u, hu⟩
        | failure er' c' =>
          rw [hb] at ihb
          obtain ⟨k, g1, g2, g3, ⟨u, g4⟩, g5⟩ := ihb
          refine ⟨k, g1, g2, g3, ⟨u, .altRight a g4⟩, fun hk v z hv hz hp => ?_⟩
          rcases lang_alt hv with hv | hv
          · exact noStart v hv (by omega) z ((List.take_prefix_take_left (by omega)).trans hp)
          · exact g5 hk v z hv hz hp
  | .star (.elem f), F, he, _, s, hs => by
    cases hst : bareOf true G n (.star (.elem f)) s with
    | panic => trivial
    | diverge => trivial
    | failure er c =>
      simp only [bareOf, Exp.bare] at hst
      have hm : many0 (discard (elmPred f)) s = .failure er c := by
        unfold discard at hst ⊢
        split at hst <;> first | (cases hst; assumption) | cases hst
      exact (c12_many0_never_fails _ _ _ _ hm).elim
    | success x m =>
      rintro hm ⟨u, hu⟩
      have hc := lang_star_elem hu rfl
      have hb := bareOf_bounds hs hst
      simp only [bareOf, Exp.bare] at hst
      have hm0 : ∃ vs, many0 (discard (elmPred f)) s = .success vs m := by
        unfold discard at hst ⊢
        split at hst <;> first | (cases hst; exact ⟨_, by assumption⟩) | cases hst
      obtain ⟨vs, hvs⟩ := hm0
      obtain ⟨-, er, c, hf⟩ := c12_many0_sound _ _ _ _ hvs
      have hlt : s.offset + m < s.input.length := by rw [List.length_drop] at hm; omega
      have hget : (s.input.drop s.offset)[m]? = some s.input[s.offset + m] := by
        rw [List.getElem?_drop, List.getElem?_eq_getElem hlt]
      have hfm : f s.input[s.offset + m] = true := by
        refine hc _ (List.mem_append_left _ ?_)
        refine List.mem_of_getElem? (i := m) ?_
        rw [List.getElem?_take_of_lt (Nat.lt_succ_self m), hget]
      have hle : s.offset + m ≤ s.input.length := by omega
      simp only [discard, elmPred, State.withInput, hle, if_true, List.drop_eq_getElem_cons hlt, hfm] at hf
      cases hf
  | .opt (.elem f), F, he, _, s, hs => by
    have ho : bareOf true G n (.opt (.elem f)) s = match s.input.drop s.offset with
        | c :: _ => if f c then .success () 1 else .success () 0
        | [] => .success () 0 := by
      simp only [bareOf, Exp.bare, discard, OniComb.opt, or, map, attempt, elmPred, State.withInput, hs, if_true, successful]
      cases s.input.drop s.offset with
      | nil => rfl
      | cons c t => by_cases h : f c = true <;> simp [h, Res.withUncommitted]
    rw [ho]
    have hlang : ∀ w, Lang G (.opt (.elem f) : Exp I N) w → w = [] ∨ ∃ c, w = [c] ∧ f c = true := by
      intro w hw
      cases hw with
      | optNone => exact .inl rfl
      | optSome h => exact .inr (lang_elem h)
    cases hd : s.input.drop s.offset with
    | nil => exact fun h => absurd h (by simp)
    | cons c t =>
      by_cases h : f c = true
      · simp only [h, if_true]
        rintro hm ⟨u, hu⟩
        cases t with
        | nil => simp at hm
        | cons d t => rcases hlang _ hu with h | ⟨_, h, -⟩ <;> simp at h
      · simp only [h]
        rintro hm ⟨u, hu⟩
        rcases hlang _ hu with h' | ⟨e, h', he⟩
        · simp at h'
        · simp only [List.take_succ_cons, List.take_zero, List.cons_append, List.cons.injEq] at h'
          exact h (h'.1 ▸ he)
  | .rule x, F, he, _, s, hs => hr x he s hs
  | .text _, _, _, h, _, _ => h.elim
  | .plus _, _, _, h, _, _ => h.elim
  | .not _, _, _, h, _, _ => h.elim
  | .look _, _, _, h, _, _ => h.elim

theorem tells (hG : GrammarLL1 G follow) (hD : ∀ x, (G x).Direct G) : ∀ (n : Nat) (e : Exp I N) {F : I → Prop},
    e.LL1 G follow F → e.Direct G → ∀ s : State I, s.offset ≤ s.input.length →
      Says G e F (s.input.drop s.offset) s.offset (bareOf true G n e s)
  | 0 => says_of_rules hG 0 fun _ _ _ _ _ => trivial
  | n + 1 => says_of_rules hG (n + 1) fun x F hF s hs => by
    have h := tells hG hD n (G x) (hG.rules x) (hD x) s hs
    have hrule : ∀ {w}, Lang G (.rule x) w → Lang G (G x) w := fun h => by cases h with | rule h => exact h
    have he : bareRules true G (n + 1) x s = bareOf true G n (G x) s := rfl
    rw [he]
    cases hr : bareOf true G n (G x) s with
    | panic => trivial
    | diverge => trivial
    | success y m =>
      rw [hr] at h
      rintro hm ⟨u, hu⟩
      exact h hm ⟨u, hrule hu⟩
    | failure er c =>
      rw [hr] at h
      obtain ⟨k, h1, h2, h3, ⟨u, hu⟩, h5⟩ := h
      exact ⟨k, h1, h2, h3, ⟨u, .rule hu⟩, fun hk v z hv hz hp => h5 hk v z (hrule hv) (fun c u h => hF c (hz c u h)) hp⟩

omit [DecidableEq I] in
/-- There is only one such place. -/
theorem c138_unique (G : N → Exp I N) (e : Exp I N) (t : List I) (k l : Nat) (hk : FirstWrong G e t k) (hl : FirstWrong G e t l) :
    k = l := by
  have key : ∀ {k l}, FirstWrong G e t k → FirstWrong G e t l → ¬k < l := by
    intro k l hk hl h
    obtain ⟨h1, ⟨u, hu⟩, -⟩ := hl
    obtain ⟨r, hr⟩ := List.take_prefix_take_left (l := t) (show k + 1 ≤ l from h)
    refine hk.2.2 (by omega) ⟨r ++ u, ?_⟩
    rw [← List.append_assoc, hr]
    exact hu
  have := key hk hl
  have := key hl hk
  omega

/-- What an error of the whole parser displays. -/
theorem whole_position (hG : GrammarLL1 G follow) (hD : ∀ x, (G x).Direct G) (e : Exp I N) (he : e.LL1 G follow fun _ => False)
    (hd : e.Direct G) (t : List I) (n : Nat) (er : PError I) (h : parse (skipRight (bareOf true G n e) end_) t = .err er) :
    ∃ k, FirstWrong G e t k ∧ er.offset? = some (k + 1) := by
  have hs := tells hG hD n e he hd ⟨t, 0⟩ (Nat.zero_le _)
  simp only [parse, skipRight] at h
  cases hr : bareOf true G n e ⟨t, 0⟩ with
  | panic => rw [hr] at h; cases h
  | diverge => rw [hr] at h; cases h
  | failure er' c =>
    rw [hr] at h hs
    cases h
    obtain ⟨k, h1, h2, -, h4, h5⟩ := hs
    refine ⟨k, ⟨h1, h4, fun hk hv => ?_⟩, by simpa using h2⟩
    obtain ⟨u, hu⟩ := hv
    exact h5 hk _ [] hu nofun (by rw [List.append_nil]; exact List.prefix_append _ _)
  | success x m =>
    rw [hr] at h hs
    have hm : 0 + m ≤ t.length := bareOf_bounds (s := ⟨t, 0⟩) (Nat.zero_le _) hr
    have hl := lang_of_bare (fun x => (hG.rules x).blind) n e he.blind ⟨t, 0⟩ m (Nat.zero_le _) hr
    simp only [State.advanceBy, Nat.zero_add, end_, State.withInput] at h hm
    rw [if_pos hm] at h
    cases hdr : t.drop m with
    | nil => rw [hdr] at h; cases h
    | cons c u =>
      rw [hdr] at h
      cases h
      exact ⟨m, ⟨hm, ⟨[], by simpa using hl⟩, fun hk => hs hk⟩, rfl⟩

/-- C138, partial: in LL(1) grammars written with single elements, `flat_map`, `|` and `lazy`, in which only single
elements are repeated (`of_many0`) or left out (`opt`), every text outside the language gives an error, and the offset
that it displays is the place, counted from 1, of the first element with which no text of the language goes on.
Missing: repetition of more than an element, `of_many1`, `seq`, and sequences written with `+`, where it is not true, see
below. -/
theorem c138_position_partial (G : N → Exp I N) (follow : N → I → Prop) (hG : GrammarLL1 G follow) (hD : ∀ x, (G x).Direct G)
    (e : Exp I N) (he : e.LL1 G follow fun _ => False) (hd : e.Direct G) (t : List I) (ht : ¬Lang G e t) :
    ∃ l, ∀ n, l ≤ n → ∃ er, parse (skipRight (bareOf true G n e) end_) t = .err er ∧
      ∀ k, er.offset? = some (k + 1) ↔ FirstWrong G e t k := by
  obtain ⟨l, hl⟩ := (c135_rejects true G follow hG e he t).2 ht
  refine ⟨l, fun n hn => ?_⟩
  obtain ⟨er, her⟩ := hl n hn
  obtain ⟨k, hk, ho⟩ := whole_position hG hD e he hd t n er her
  refine ⟨er, her, fun j => ⟨fun h => ?_, fun h => ?_⟩⟩
  · rw [ho] at h
    cases h
    exact hk
  · rw [c138_unique G e t j k h hk, ho]

/-! ## All grammars: never too late -/

omit [DecidableEq I] in
theorem discard_fails {A : Type} {p : Parser I A} {s : State I} {er : PError I} {c : Committed}
    (h : discard p s = .failure er c) : p s = .failure er c := by
  unfold discard at h
  split at h <;> first | (cases h; assumption) | cases h

omit [DecidableEq I] in
theorem lang_of_productive : ∀ (e : Exp I N), e.Productive G → ∃ w, Lang G e w
  | .empty, _ => ⟨_, .empty⟩
  | .elem _, ⟨_, h⟩ => ⟨_, .elem h⟩
  | .text w, _ => ⟨_, .text w⟩
  | .seq a b, h => by
    obtain ⟨v, hv⟩ := lang_of_productive a h.1
    obtain ⟨w, hw⟩ := lang_of_productive b h.2
    exact ⟨_, .seq hv hw⟩
  | .alt a b, h => by
    obtain ⟨v, hv⟩ := lang_of_productive a h.1
    exact ⟨_, .altLeft b hv⟩
  | .star _, _ => ⟨_, .starNone _⟩
  | .plus a, h => by
    obtain ⟨v, hv⟩ := lang_of_productive a h
    exact ⟨_, .plus hv (.starNone _)⟩
  | .opt _, _ => ⟨_, .optNone _⟩
  | .not _, h => h.elim
  | .look _, h => h.elim
  | .rule _, ⟨_, h⟩ => ⟨_, .rule h⟩

omit [DecidableEq I] in
theorem blind_of_productive : ∀ (e : Exp I N), e.Productive G → e.Blind
  | .empty, _ => trivial
  | .elem _, _ => trivial
  | .text _, _ => trivial
  | .seq a b, h => ⟨blind_of_productive a h.1, blind_of_productive b h.2⟩
  | .alt a b, h => ⟨blind_of_productive a h.1, blind_of_productive b h.2⟩
  | .star _, h => h
  | .plus a, h => blind_of_productive a h
  | .opt _, h => h
  | .not _, h => h.elim
  | .look _, h => h.elim
  | .rule _, _ => trivial

omit [DecidableEq I] in
theorem seqLoop_place (eq : I → I → Bool) (s : State I) (inp lit : List I) : ∀ (pat rest : List I) (i : Nat) {er : PError I}
    {c : Committed} {d : Nat}, seqLoop eq s inp lit i pat rest = .failure er c → er.offset? = some d →
    ∃ j, d = s.offset + i + j ∧ j ≤ rest.length ∧ j ≤ pat.length ∧ ∀ m, m < j → ∃ a b, pat[m]? = some a ∧ rest[m]? = some b ∧ eq a b = true
  | [], _, _, _, _, _, h, _ => by simp [seqLoop] at h
  | _ :: _, [], _, _, _, _, h, hd => by
    simp only [seqLoop, Res.failure.injEq] at h
    rw [← h.1] at hd
    cases hd
  | a :: pat, b :: rest, i, er, c, d, h, hd => by
    rw [seqLoop] at h
    split at h
    · rename_i hab
      obtain ⟨j, h1, h2, h3, h4⟩ := seqLoop_place eq s inp lit pat rest (i + 1) h hd
      refine ⟨j + 1, by omega, by simp; omega, by simp; omega, fun m hm => ?_⟩
      cases m with
      | zero => exact ⟨a, b, rfl, rfl, hab⟩
      | succ m => simpa using h4 m (by omega)
    · simp only [Res.failure.injEq] at h
      rw [← h.1] at hd
      cases hd
      exact ⟨0, rfl, by simp, by simp, fun m hm => absurd hm (by omega)⟩

/-- Everything before the element that the error at `d` names is the beginning of a text. -/
def Timely (G : N → Exp I N) (e : Exp I N) (s : State I) (d : Nat) : Prop :=
  ∃ k, k ≤ (s.input.drop s.offset).length ∧ d ≤ s.offset + k + 1 ∧ Viable G e ((s.input.drop s.offset).take k)

theorem timely_of_rules {flat : Bool} (hG : ∀ x, (G x).Blind) (n : Nat)
    (hr : ∀ x, (∃ w, Lang G (G x) w) → ∀ (s : State I), s.offset ≤ s.input.length → ∀ er c d, bareRules flat G n x s = .failure er c →
      er.offset? = some d → Timely G (.rule x) s d) : ∀ (e : Exp I N), e.Productive G → ∀ (s : State I),
    s.offset ≤ s.input.length → ∀ er c d, bareOf flat G n e s = .failure er c → er.offset? = some d → Timely G e s d
  | .empty, _, s, _, er, c, d, h, _ => by simp [bareOf, Exp.bare, unit, successful] at h
  | .elem f, ⟨c0, h0⟩, s, hs, er, c, d, h, hd => by
    refine ⟨0, Nat.zero_le _, ?_, ⟨[c0], .elem h0⟩⟩
    have h := discard_fails h
    simp only [elmPred, State.withInput, hs, if_true] at h
    split at h
    · split at h
      · cases h
      · simp only [Res.failure.injEq] at h
        rw [← h.1] at hd
        cases hd
        exact Nat.le_refl _
    · simp only [Res.failure.injEq] at h
      rw [← h.1] at hd
      cases hd
      exact Nat.le_refl _
  | .text w, _, s, hs, er, c, d, h, hd => by
    have h := discard_fails h
    simp only [OniComb.seq, State.withInput, hs, if_true] at h
    obtain ⟨j, h1, h2, h3, h4⟩ := seqLoop_place _ _ _ _ _ _ _ h hd
    refine ⟨j, h2, by omega, ⟨w.drop j, ?_⟩⟩
    have : (s.input.drop s.offset).take j = w.take j := by
      apply List.ext_getElem?
      intro m
      by_cases hm : m < j
      · obtain ⟨a, b, ha, hb, hab⟩ := h4 m hm
        rw [List.getElem?_take_of_lt hm, List.getElem?_take_of_lt hm, ha, hb, of_decide_eq_true hab]
      · rw [List.getElem?_eq_none (by simp; omega), List.getElem?_eq_none (by simp; omega)]
    rw [this, List.take_append_drop]
    exact .text w
  | .seq a b, hp, s, hs, er, c, d, h, hd => by
    have key : bareOf flat G n a s = .failure er c ∨ ∃ m c', bareOf flat G n a s = .success () m ∧
        bareOf flat G n b (s.advanceBy m) = .failure er c' := by
      cases flat with
      | true =>
        have hb : (bareOf true G n (.seq a b)) = flatMap (bareOf true G n a) fun _ => bareOf true G n b := by
          simp [bareOf, Exp.bare]
        rw [hb, flatMap] at h
        cases ha : bareOf true G n a s with
        | success x m =>
          rw [ha] at h
          cases hb : bareOf true G n b (s.advanceBy m) with
          | failure e' c' =>
            simp only [hb, Res.addCommit, Res.advanceSuccess, Res.failure.injEq] at h
            exact .inr ⟨m, c', rfl, by rw [hb, h.1]⟩
          | _ => simp [hb, Res.addCommit, Res.advanceSuccess] at h
        | failure e' c' => rw [ha] at h; exact .inl h
        | _ => rw [ha] at h; cases h
      | false =>
        have hb : (bareOf false G n (.seq a b)) = discard (andThen (bareOf false G n a) (bareOf false G n b)) := by
          simp [bareOf, Exp.bare]
        rw [hb] at h
        have h := discard_fails h
        rw [andThen] at h
        cases ha : bareOf false G n a s with
        | success x m =>
          rw [ha] at h
          cases hb : bareOf false G n b (s.advanceBy m) with
          | failure e' c' =>
            simp only [hb, Res.failure.injEq] at h
            exact .inr ⟨m, c', rfl, by rw [hb, h.1]⟩
          | _ => simp [hb] at h
        | failure e' c' => rw [ha] at h; simp only [Res.failure.injEq] at h; exact .inl (by rw [h.1, h.2])
        | _ => rw [ha] at h; cases h
    rcases key with ha | ⟨m, c', ha, hb⟩
    · obtain ⟨k, h1, h2, u, hu⟩ := timely_of_rules hG n hr a hp.1 s hs er c d ha hd
      obtain ⟨w, hw⟩ := lang_of_productive b hp.2
      exact ⟨k, h1, h2, u ++ w, by rw [← List.append_assoc]; exact .seq hu hw⟩
    · have hm := bareOf_bounds hs ha
      have hla := lang_of_bare hG n a (blind_of_productive a hp.1) s m hs ha
      obtain ⟨k, h1, h2, u, hu⟩ := timely_of_rules hG n hr b hp.2 (s.advanceBy m) hm er c' d hb hd
      have hdrop : (s.advanceBy m).input.drop (s.advanceBy m).offset = (s.input.drop s.offset).drop m := by
        simp [State.advanceBy, List.drop_drop]
      rw [hdrop] at h1 hu
      have h2' : d ≤ s.offset + m + k + 1 := h2
      have h1' : k ≤ s.input.length - (s.offset + m) := by simpa using h1
      refine ⟨m + k, by rw [List.length_drop]; omega, by omega, u, ?_⟩
      rw [List.take_add, List.append_assoc]
      exact .seq hla hu
  | .alt a b, hp, s, hs, er, c, d, h, hd => by
    have hor : (bareOf flat G n (.alt a b)) = or (bareOf flat G n a) (bareOf flat G n b) := rfl
    rw [hor, or] at h
    split at h
    · obtain ⟨k, h1, h2, u, hu⟩ := timely_of_rules hG n hr b hp.2 s hs er c d h hd
      exact ⟨k, h1, h2, u, .altRight a hu⟩
    · obtain ⟨k, h1, h2, u, hu⟩ := timely_of_rules hG n hr a hp.1 s hs er c d h hd
      exact ⟨k, h1, h2, u, .altLeft b hu⟩
  | .star a, _, s, _, er, c, d, h, _ => (c12_many0_never_fails _ _ _ _ (discard_fails h)).elim
  | .plus a, hp, s, hs, er, c, d, h, hd => by
    obtain ⟨-, -, rfl⟩ := (c13_many1_fails_iff _ s hs _ _).1 (discard_fails h)
    cases hd
    obtain ⟨w, hw⟩ := lang_of_productive (.plus a) hp
    refine ⟨0, Nat.zero_le _, ?_, w, hw⟩
    unfold State.lastOffset
    split <;> omega
  | .opt a, _, s, _, er, c, d, h, _ => by
    have h := discard_fails h
    simp only [OniComb.opt, or, map, attempt, successful] at h
    cases ha : a.bare flat (bareRules flat G n) s with
    | failure e' c' => cases c' <;> simp [ha, Res.withUncommitted] at h
    | _ => simp [ha, Res.withUncommitted] at h
  | .not _, h, _, _, _, _, _, _, _ => h.elim
  | .look _, h, _, _, _, _, _, _, _ => h.elim
  | .rule x, hp, s, hs, er, c, d, h, hd => hr x hp s hs er c d h hd

theorem timely {flat : Bool} (hG : ∀ x, (G x).Productive G) : ∀ (n : Nat) (e : Exp I N), e.Productive G → ∀ (s : State I),
    s.offset ≤ s.input.length → ∀ er c d, bareOf flat G n e s = .failure er c → er.offset? = some d → Timely G e s d
  | 0 => timely_of_rules (fun x => blind_of_productive _ (hG x)) 0 fun _ _ _ _ _ _ _ h => nomatch h
  | n + 1 => timely_of_rules (fun x => blind_of_productive _ (hG x)) (n + 1) fun x _ s hs er c d h hd => by
    obtain ⟨k, h1, h2, u, hu⟩ := timely hG n (G x) (hG x) s hs er c d h hd
    exact ⟨k, h1, h2, u, .rule hu⟩

/-- C138: an error never names a place too late, in any grammar without lookahead predicates, LL(1) or not, in both
writings: the elements before the displayed one are the beginning of a text of the language. -/
theorem c138_not_late (flat : Bool) (G : N → Exp I N) (hG : ∀ x, (G x).Productive G) (e : Exp I N) (he : e.Productive G)
    (t : List I) (n : Nat) (er : PError I) (h : parse (skipRight (bareOf flat G n e) end_) t = .err er) (d : Nat)
    (hd : er.offset? = some d) : d ≤ t.length + 1 ∧ Viable G e (t.take (d - 1)) := by
  have key : ∃ k, k ≤ t.length ∧ d ≤ k + 1 ∧ Viable G e (t.take k) := by
    simp only [parse, skipRight] at h
    cases hr : bareOf flat G n e ⟨t, 0⟩ with
    | panic => rw [hr] at h; cases h
    | diverge => rw [hr] at h; cases h
    | failure er' c =>
      rw [hr] at h
      cases h
      obtain ⟨k, h1, h2, h3⟩ := timely hG n e he ⟨t, 0⟩ (Nat.zero_le _) _ _ d hr hd
      exact ⟨k, h1, by simpa using h2, h3⟩
    | success x m =>
      rw [hr] at h
      have hm : 0 + m ≤ t.length := bareOf_bounds (s := ⟨t, 0⟩) (Nat.zero_le _) hr
      have hl := lang_of_bare (fun x => blind_of_productive _ (hG x)) n e (blind_of_productive e he) ⟨t, 0⟩ m (Nat.zero_le _) hr
      simp only [State.advanceBy, Nat.zero_add, end_, State.withInput] at h hm
      rw [if_pos hm] at h
      cases hdr : t.drop m with
      | nil => rw [hdr] at h; cases h
      | cons c u =>
        rw [hdr] at h
        cases h
        cases hd
        exact ⟨m, hm, Nat.le_refl _, [], by simpa using hl⟩
  obtain ⟨k, h1, h2, u, hu⟩ := key
  refine ⟨by omega, ?_⟩
  obtain ⟨r, hr⟩ := List.take_prefix_take_left (l := t) (show d - 1 ≤ k by omega)
  exact ⟨r ++ u, by rw [← List.append_assoc, hr]; exact hu⟩

/-! ## Where it names an earlier place -/

/-- A repetition or an option hides the error of an item that has begun: whatever it is that is wrong in the item, the
error names the first element of the item; `of_many1` even names the element before it. -/
theorem c138_hidden_violated (flat : Bool) (G : N → Exp I N) (a : Exp I N) (n : Nat) (t : List I) (ht : t ≠ [])
    (ha : Fails (bareOf flat G n a) ⟨t, 0⟩) :
    (∃ er, parse (skipRight (bareOf flat G n (.star a)) end_) t = .err er ∧ er.offset? = some 1) ∧
    (∃ er, parse (skipRight (bareOf flat G n (.opt a)) end_) t = .err er ∧ er.offset? = some 1) ∧
    ∃ er, parse (skipRight (bareOf flat G n (.plus a)) end_) t = .err er ∧ er.offset? = some 0 := by
  have h1 := bare_star_none ha
  have h2 := bare_opt_none ha
  have h3 := bare_plus_fails (Nat.zero_le _) ha
  cases t with
  | nil => exact (ht rfl).elim
  | cons c t =>
    refine ⟨⟨.mismatch (c :: t) 1 1, ?_, rfl⟩, ⟨.mismatch (c :: t) 1 1, ?_, rfl⟩, ⟨.mismatch (c :: t) 0 0, ?_, rfl⟩⟩
    · simp only [parse, skipRight, h1]
      rfl
    · simp only [parse, skipRight, h2]
      rfl
    · simp only [parse, skipRight, h3]
      rfl

omit [DecidableEq I] in
/-- The language of an item of two elements, and its first wrong element in `a a`. -/
theorem pair_wrong {a b : I} (e : Exp I N) (h1 : Lang G e [a, b]) (h2 : ∀ u, ¬Lang G e (a :: a :: u)) :
    FirstWrong G e [a, a] 1 :=
  ⟨by simp, ⟨[b], h1⟩, fun _ ⟨u, hu⟩ => h2 u hu⟩

/-- Text `a a` for `a b`: the second element is the first wrong one, yet `(a b)*`, `(a b)?`, the literal `a b` and, with
sequences written with `+`, `a b | b` all name the first. A literal that the end of the text cuts off names none, and
`a+` names no element of the text `b`. -/
theorem c138_position_violated (G : N → Exp I N) (n : Nat) (a b : I) (hab : a ≠ b) :
    let ab : Exp I N := .seq (.elem (· == a)) (.elem (· == b))
    let shows (flat : Bool) (e : Exp I N) (t : List I) (d : Option Nat) := ∃ er, parse (skipRight (bareOf flat G n e) end_) t = .err er ∧
      er.offset? = d
    (FirstWrong G (.star ab) [a, a] 1 ∧ ∀ flat, shows flat (.star ab) [a, a] (some 1)) ∧
    (FirstWrong G (.opt ab) [a, a] 1 ∧ ∀ flat, shows flat (.opt ab) [a, a] (some 1)) ∧
    (FirstWrong G (.text [a, b]) [a, a] 1 ∧ ∀ flat, shows flat (.text [a, b]) [a, a] (some 1)) ∧
    (FirstWrong G (.text [a, b]) [a] 1 ∧ ∀ flat, shows flat (.text [a, b]) [a] none) ∧
    (FirstWrong G (.alt ab (.elem (· == b))) [a, a] 1 ∧ shows false (.alt ab (.elem (· == b))) [a, a] (some 1)) ∧
    (FirstWrong G (.plus (.elem (· == a))) [b] 0 ∧ ∀ flat, shows flat (.plus (.elem (· == a))) [b] (some 0)) := by
  intro ab shows
  have hba : ¬b = a := fun h => hab h.symm
  have ea : Lang G (.elem (· == a) : Exp I N) [a] := .elem (by simp)
  have eb : Lang G (.elem (· == b) : Exp I N) [b] := .elem (by simp)
  have hp : Lang G ab [a, b] := .seq ea eb
  have only : ∀ w, Lang G ab w → w = [a, b] := by
    intro w hw
    obtain ⟨u, v, rfl, hu, hv⟩ := lang_seq hw
    obtain ⟨c, rfl, hc⟩ := lang_elem hu
    obtain ⟨d, rfl, hd⟩ := lang_elem hv
    simp only [beq_iff_eq] at hc hd
    rw [hc, hd]
    rfl
  have fails : ∀ flat, Fails (bareOf flat G n ab) ⟨[a, a], 0⟩ := by
    intro flat
    unfold Fails
    cases flat <;>
      simp [ab, bareOf, Exp.bare, flatMap, andThen, discard, elmPred, State.withInput, State.advanceBy, hab, Res.addCommit,
        Res.advanceSuccess]
  have failsA : ∀ flat, Fails (bareOf flat G n (.elem (· == a))) ⟨[b], 0⟩ := by
    intro flat
    unfold Fails
    simp [bareOf, Exp.bare, discard, elmPred, State.withInput, hba]
  refine ⟨⟨pair_wrong (b := b) _ ?_ fun u hu => ?_, fun flat => (c138_hidden_violated flat G ab n _ (by simp) (fails flat)).1⟩,
    ⟨pair_wrong (b := b) _ (.optSome hp) fun u hu => ?_, fun flat => (c138_hidden_violated flat G ab n _ (by simp) (fails flat)).2.1⟩,
    ⟨pair_wrong (b := b) _ (.text _) fun u hu => ?_, fun flat => ?_⟩,
    ⟨⟨by simp, ⟨[b], .text _⟩, fun h => absurd h (by simp)⟩, fun flat => ?_⟩,
    ⟨pair_wrong (b := b) _ (.altLeft _ hp) fun u hu => ?_, ?_⟩,
    ⟨⟨by simp, ⟨[a], by simpa using Lang.plus ea (.starNone _)⟩, fun _ ⟨u, hu⟩ => ?_⟩,
      fun flat => (c138_hidden_violated flat G _ n _ (by simp) (failsA flat)).2.2⟩⟩
  · simpa using Lang.starMore hp (.starNone _)
  · generalize hw : a :: a :: u = w at hu
    cases hu with
    | starNone => cases hw
    | starMore ha hs =>
      rw [only _ ha] at hw
      simp only [List.cons_append, List.cons.injEq] at hw
      exact hab hw.2.1
  · generalize hw : a :: a :: u = w at hu
    cases hu with
    | optNone => cases hw
    | optSome ha =>
      rw [only _ ha] at hw
      simp only [List.cons.injEq] at hw
      exact hab hw.2.1
  · generalize hw : a :: a :: u = w at hu
    cases hu with
    | text =>
      simp only [List.cons.injEq] at hw
      exact hab hw.2.1
  · exact ⟨.mismatch [a, a] 1 1, by
      simp [bareOf, Exp.bare, parse, skipRight, discard, OniComb.seq, State.withInput, seqLoop, hba, State.advanceBy, Res.toOut], rfl⟩
  · exact ⟨.incomplete, by
      simp [bareOf, Exp.bare, parse, skipRight, discard, OniComb.seq, State.withInput, seqLoop, Res.toOut], rfl⟩
  · rcases lang_alt hu with hu | hu
    · have := only _ hu
      simp only [List.cons.injEq] at this
      exact hab this.2.1
    · obtain ⟨c, hc, -⟩ := lang_elem hu
      cases hc
  · exact ⟨.mismatch [a, a] 1 1, by
      simp [ab, bareOf, Exp.bare, parse, skipRight, or, andThen, discard, elmPred, State.withInput, State.advanceBy, hab, Res.toOut], rfl⟩
  · generalize hw : List.take (0 + 1) [b] ++ u = w at hu
    cases hu with
    | plus ha _ =>
      obtain ⟨c, rfl, hc⟩ := lang_elem ha
      simp only [beq_iff_eq] at hc
      simp only [List.take_succ_cons, List.take_zero, List.cons_append, List.cons.injEq] at hw
      exact hba (hw.1.trans hc)

/-! ### Nested lists of numbers -/

/-- `value = digit digit* | "(" value tail ")"`, `tail = "," value tail | `. -/
inductive Nest where
  | value
  | tail

def nest : Nest → Exp Char Nest
  | .value => .alt (.seq (.elem Chr.isDigit) (.star (.elem Chr.isDigit)))
      (.seq (.elem (· == '(')) (.seq (.rule .value) (.seq (.rule .tail) (.elem (· == ')')))))
  | .tail => .alt (.seq (.elem (· == ',')) (.seq (.rule .value) (.rule .tail))) .empty

/-- What may follow. -/
def nestFollow : Nest → Char → Prop
  | .value, c => c = ')' ∨ c = ','
  | .tail, c => c = ')'

theorem nest_elem {f : Char → Bool} {c : Char} (h : Starts nest c (.elem f)) : f c = true := by
  cases h with
  | elem h => exact h

theorem nest_first {f : Char → Bool} {b : Exp Char Nest} {c : Char} (h : Starts nest c (.seq (.elem f) b)) : f c = true := by
  cases h with
  | seqLeft _ h => exact nest_elem h
  | seqRight h _ => cases h

theorem nest_tail {c : Char} (h : Starts nest c (.rule .tail)) : c = ',' := by
  cases h with
  | rule h =>
    cases h with
    | altLeft _ h => simpa using nest_first h
    | altRight _ h => cases h

theorem nest_LL1 : GrammarLL1 nest nestFollow where
  rules
    | .value => by
      refine ⟨⟨trivial, trivial, nofun, fun c h h' => ?_⟩, ⟨trivial, fun c h => ?_, fun c h => ?_, trivial⟩, fun h => ?_,
        fun c h h' => ?_, fun h => ?_⟩
      · have h := nest_elem h
        rcases h' with rfl | rfl <;> exact absurd h (by decide)
      · rcases h with h | ⟨h, -⟩
        · cases h with
          | seqLeft _ h => exact .inr (nest_tail h)
          | seqRight _ h => exact .inl (by simpa using nest_elem h)
        · cases h with
          | seq _ h => cases h
      · rcases h with h | ⟨h, -⟩
        · have := nest_elem h
          exact beq_iff_eq.1 this
        · cases h
      · cases h with
        | seq h _ => cases h
      · have h' : c = '(' := by simpa using nest_first h'
        rw [h'] at h
        exact absurd (nest_first h) (by decide)
      · cases h with
        | seq h _ => cases h
    | .tail => by
      refine ⟨⟨trivial, fun c h => ?_, fun c h => h⟩, trivial, fun h => ?_, nofun, fun _ c h h' => ?_⟩
      · rcases h with h | ⟨-, h⟩
        · exact .inr (nest_tail h)
        · exact .inl h
      · cases h with
        | seq h _ => cases h
      · have h : c = ',' := by simpa using nest_first h
        rw [h] at h'
        have h' : ',' = ')' := h'
        exact absurd h' (by decide)
  noLeftRecursion := by
    refine ⟨fun x => ⟨_, fun y h => ?_⟩⟩
    cases x with
    | value =>
      rcases h with (h | ⟨h, -⟩) | h | ⟨h, -⟩
      · exact h.elim
      · cases h
      · exact h.elim
      · cases h
    | tail =>
      rcases h with (h | ⟨h, -⟩) | h
      · exact h.elim
      · cases h
      · exact h.elim

theorem nest_direct : ∀ x, (nest x).Direct nest
  | .value => ⟨⟨⟨'1', by decide⟩, trivial⟩, ⟨'(', rfl⟩, ⟨_, .altLeft _ (.seq (.elem (c := '1') (by decide)) (.starNone _))⟩,
      ⟨_, .altRight _ .empty⟩, ')', rfl⟩
  | .tail => ⟨⟨⟨',', rfl⟩, ⟨_, .altLeft _ (.seq (.elem (c := '1') (by decide)) (.starNone _))⟩, _, .altRight _ .empty⟩, trivial⟩

/-- The first wrong character of every text that is not a nested list. -/
example (t : List Char) (ht : ¬Lang nest (.rule .value) t) :
    ∃ l, ∀ n, l ≤ n → ∃ er, parse (skipRight (bareOf true nest n (.rule .value)) end_) t = .err er ∧
      ∀ k, er.offset? = some (k + 1) ↔ FirstWrong nest (.rule .value) t k :=
  c138_position_partial nest nestFollow nest_LL1 nest_direct (.rule .value) (fun _ h => h.elim)
    ⟨_, .altLeft _ (.seq (.elem (c := '1') (by decide)) (.starNone _))⟩ t ht

/-- In `(1,(23,))` it is the first `)`, the eighth character. -/
example : ∃ er, parse (skipRight (bareOf true nest 12 (.rule .value)) end_) "(1,(23,))".toList = .err er ∧ er.offset? = some 8 ∧
    FirstWrong nest (.rule .value) "(1,(23,))".toList 7 := by
  have h : parse (skipRight (bareOf true nest 12 (.rule .value)) end_) "(1,(23,))".toList = .err (.mismatch "))".toList 8 1) := by
    decide +kernel
  obtain ⟨k, hk, ho⟩ := whole_position nest_LL1 nest_direct (.rule .value) (fun _ h => h.elim)
    ⟨_, .altLeft _ (.seq (.elem (c := '1') (by decide)) (.starNone _))⟩ _ _ _ h
  cases ho
  exact ⟨_, h, rfl, hk⟩

/-- The sums of C135 repeat more than an element, so that only the other direction is left: in `1+(2` nothing before the
displayed place is wrong. -/
example : (∀ x, (arith x).Productive arith) ∧
    ∃ er, parse (skipRight (bareOf false arith 8 (.rule .sum)) end_) "1+(2".toList = .err er ∧ er.offset? = some 2 := by
  have term : Lang arith (arith .term) (['1'] ++ []) := .altLeft _ (.plus (.elem (c := '1') (by decide)) (.starNone _))
  refine ⟨fun x => ?_, ⟨.mismatch "+(2".toList 2 1, by decide +kernel, rfl⟩⟩
  cases x with
  | sum => exact ⟨⟨_, term⟩, trivial, trivial⟩
  | term => exact ⟨⟨'1', by decide⟩, ⟨'(', rfl⟩, ⟨_, .seq (.rule term) (.starNone _)⟩, ')', rfl⟩

end OniComb.Peg
