import Verif.Props.HoconRepeat
import Verif.Props.HoconString
import Verif.Lemmas.HoconDotted

/-!
# C88: documents with dotted keys
-/

namespace OniComb.Hocon
open OniComb OniComb.Hocon.Spec OniComb.Hocon.Spec.Layout
open OniComb.Uri (Bytes byte bytes)

/-- No dotted key is the beginning of another one. -/
def Apart (ps : Entries) : Prop :=
  ps.Pairwise fun e f => ∀ p q, 1 < p.length → 1 < q.length → (∀ s ∈ p ++ q, byte '.' ∉ s) →
    e.1 = joinDot p → f.1 = joinDot q → ¬ Comparable p q

/-- Settings in any layout with different keys, none of which is the beginning of another one, without references: what
is written behind a dotted key is found at its path, and below it what it has there.  (Dotted keys inside of the
values are not covered, and the undotted keys beside a dotted one are lost: `c57_undotted_keys_lost_violated`.) -/
theorem c88_dotted_partial (S : Std) (w : World) (g t : Bytes) (ps : Entries) (hg : Gap g) (hne : ps ≠ [])
    (h : Members S.parseDecimal false ps t []) (hk : (keys ps).Nodup) (hi : Apart ps)
    (hd : ∀ e ∈ ps, ∀ es, e.2 = .obj es → ∀ f ∈ es, byte '.' ∉ f.1) (hm : ∀ q, ¬ Mentions (.obj ps) q) :
    ∃ v N, (∀ n, N ≤ n → parseDocument S w n (g ++ t) = .ok (some v)) ∧
      ∀ p ss x, 1 < p.length → (∀ s ∈ p ++ ss, Segment s) → (joinDot p, x) ∈ ps →
        getValue v (joinDot (p ++ ss)) = .ok (descend ss (latest x)) := by
  have hv : ∀ e ∈ ps, Wf e.2 ∧ Settled e.2 ∧ Undotted e.2 := fun e he => by
    obtain ⟨t, g, r, hv⟩ := members_val h e he
    exact ⟨val_wf hv, val_settled hv fun p hp => hm p (.value he hp), hd e he⟩
  obtain ⟨x, h1, h2⟩ := expand_settled hv
  have hp := settings_reads hg hne h
  rw [configFold_distinct (by exact hk)] at hp
  obtain ⟨N, hN⟩ := load_expanded hp h1 w x (settled_resolved h2)
  refine ⟨x, N, fun n hn => hN (w.env S n) n rfl hn, fun p ss y hp hs hy => ?_⟩
  have hne : p ≠ [] := by rintro rfl; simp at hp
  obtain ⟨z, h3, h4⟩ := c57_dotted_keys_partial ⟨w.var, fun _ => .panic⟩ ps x (h1 _) hi p y hp
    (fun s hs' => segment_dot (hs s (List.mem_append_left _ hs'))) hy
  rw [settled_expand (hv _ hy).2.1 (hv _ hy).2.2] at h3
  cases h3
  rw [c58_get_value _ _ (by simp [hne]) hs, descend_at hne h4]

/-- The document of the example. -/
def dottedText : Bytes := bytes "a.b = 1\na.c { d = null }\n"

theorem dotted_members : Members decDigits.parseDecimal false
    [(bytes "a.b", .num ⟨1, 0⟩), (bytes "a.c", .obj [(bytes "d", .null)])] dottedText [] := by
  have ha : Segment (bytes "a") := ⟨by decide, by decide⟩
  have hb : Segment (bytes "b") := ⟨by decide, by decide⟩
  have hc : Segment (bytes "c") := ⟨by decide, by decide⟩
  have hd : Segment (bytes "d") := ⟨by decide, by decide⟩
  have h1 := Members.assign (dec := decDigits.parseDecimal) (c := true) (x := bytes "}\n") (s := []) (b := byte '=') (v := .null)
    (.inl ⟨pathText_one hd, rfl⟩) gap_space (.inl rfl) gap_space gap_space (.inl rfl) .null .nil
  have h2 := Members.block (dec := decDigits.parseDecimal) (c := false) (x := []) (kt := bytes "a.c") (g := bytes "\n") (s := []) (t' := [])
    (.inl ⟨⟨[bytes "a", bytes "c"], by simp, by simpa using ⟨ha, hc⟩, rfl⟩, rfl⟩) gap_space (.inl (by exact trivial)) gap_line (.inl rfl)
    (.obj gap_space h1 (gathered_self (by simp [keys]))
      (by exact ⟨[], bytes "\n", [], rfl, by simp, noHead_cons.2 (by decide), gap_line, noHead_nil, noHead_nil⟩)) .nil
  exact Members.assign (kt := bytes "a.b") (t := bytes "1") (s := []) (b := byte '=')
    (.inl ⟨⟨[bytes "a", bytes "b"], by simp, by simpa using ⟨ha, hb⟩, rfl⟩, rfl⟩) gap_space (.inl rfl) gap_space gap_line (.inl rfl)
    (.num (.inl (.inr ⟨byte '1', [], rfl, by decide, by decide, by simp⟩)) dec_one
      ⟨noHead_cons.2 (by unfold NumByte Digit; decide), noHead_cons.2 (by unfold UnitStart; decide)⟩) h2

/-- `a.b` is 1 and `a.c.d` is null. -/
example (w : World) : ∃ v N, (∀ n, N ≤ n → parseDocument decDigits w n dottedText = .ok (some v)) ∧
    getValue v (bytes "a.b") = .ok (some (int 1)) ∧ getValue v (bytes "a.c.d") = .ok (some .null) := by
  have ha : Segment (bytes "a") := ⟨by decide, by decide⟩
  have hb : Segment (bytes "b") := ⟨by decide, by decide⟩
  have hc : Segment (bytes "c") := ⟨by decide, by decide⟩
  have hd : Segment (bytes "d") := ⟨by decide, by decide⟩
  obtain ⟨v, N, h1, h2⟩ := c88_dotted_partial decDigits w [] dottedText _ gap_nil (by simp) dotted_members (by decide) (by
    refine .cons ?_ (.cons (by simp) .nil)
    simp only [List.mem_singleton, forall_eq]
    intro p q _ _ hs hp hq hpq
    have h1 : splitDot (bytes "a.b") = p := by
      rw [show bytes "a.b" = joinDot p from hp, splitDot_joinDot (by rintro rfl; simp at *) (fun s h => hs s (by simp [h]))]
    have h2 : splitDot (bytes "a.c") = q := by
      rw [show bytes "a.c" = joinDot q from hq, splitDot_joinDot (by rintro rfl; simp at *) (fun s h => hs s (by simp [h]))]
    subst h1 h2
    revert hpq
    unfold Comparable
    decide) (by
    intro e he es hes f hf
    simp only [List.mem_cons, List.not_mem_nil, or_false] at he
    rcases he with rfl | rfl
    · cases hes
    · cases hes
      cases List.mem_singleton.1 hf
      exact fun h => absurd h (by decide)) (by
    intro q hq
    cases hq with
    | value he h =>
      simp only [List.mem_cons, List.not_mem_nil, or_false] at he
      rcases he with rfl | rfl
      · cases h
      · cases h with
        | value he h =>
          cases List.mem_singleton.1 he
          cases h)
  exact ⟨v, N, h1, h2 [bytes "a", bytes "b"] [] (.num ⟨1, 0⟩) (by simp) (by simpa using ⟨ha, hb⟩) (by exact List.mem_cons_self),
    h2 [bytes "a", bytes "c"] [bytes "d"] (.obj [(bytes "d", .null)]) (by simp) (by simpa using ⟨ha, hc, hd⟩) (by exact List.mem_cons_of_mem _ List.mem_cons_self)⟩

/-- A dotted key in braces is not found at its path. -/
theorem c88_dotted_in_braces_violated (S : Std) (w : World) (t k s : Bytes) (ss : List Bytes) (es fs : Entries)
    (h : Doc S.parseDecimal [.obj es] t) (hd : ∀ e ∈ es, byte '.' ∉ e.1) (hm : ∀ p, ¬ Mentions (.obj es) p)
    (hs : ∀ s' ∈ k :: s :: ss, Segment s') (hk : get k es = some (.obj fs)) (_hx : joinDot (s :: ss) ∈ keys fs)
    (hf : s ∉ keys fs) :
    ∃ v N, (∀ n, N ≤ n → parseDocument S w n t = .ok (some v)) ∧ getValue v (joinDot (k :: s :: ss)) = .ok none := by
  obtain ⟨v, N, h1, h2⟩ := c97_get_value_partial S w t es h hd hm
  refine ⟨v, N, h1, ?_⟩
  rw [h2 _ (by simp) hs, descend, hk]
  show Out.ok (descend (s :: ss) (.obj fs)) = _
  rw [descend, get_none_of_not_mem hf]
  rfl

/-- `a { b.c = null }`: there is no `a.b.c`. -/
example (w : World) : ∃ v N, (∀ n, N ≤ n → parseDocument decDigits w n (bytes "a { b.c = null }\n") = .ok (some v)) ∧
    getValue v (bytes "a.b.c") = .ok none := by
  have ha : Segment (bytes "a") := ⟨by decide, by decide⟩
  have hb : Segment (bytes "b") := ⟨by decide, by decide⟩
  have hc : Segment (bytes "c") := ⟨by decide, by decide⟩
  have h1 := Members.assign (dec := decDigits.parseDecimal) (c := true) (kt := bytes "b.c") (x := bytes "}\n") (s := []) (b := byte '=') (v := .null)
    (.inl ⟨⟨[bytes "b", bytes "c"], by simp, by simpa using ⟨hb, hc⟩, rfl⟩, rfl⟩) gap_space (.inl rfl) gap_space gap_space (.inl rfl) .null .nil
  have h2 := Members.block (dec := decDigits.parseDecimal) (c := false) (x := []) (kt := bytes "a") (g := bytes "\n") (s := []) (t' := [])
    (.inl ⟨pathText_one ha, rfl⟩) gap_space (.inl (by exact trivial)) gap_line (.inl rfl)
    (.obj gap_space h1 (gathered_self (by simp [keys]))
      (by exact ⟨[], bytes "\n", [], rfl, by simp, noHead_cons.2 (by decide), gap_line, noHead_nil, noHead_nil⟩)) .nil
  have h3 := Doc.settings (g := []) gap_nil (by simp) (by simp [keys]) h2
  exact c88_dotted_in_braces_violated decDigits w (bytes "a { b.c = null }\n") (bytes "a") (bytes "b") [bytes "c"] _ _ h3
    (by simp only [List.mem_singleton, forall_eq]; exact fun h => absurd h (by decide)) (by
      intro p hp
      cases hp with
      | value he h =>
        cases List.mem_singleton.1 he
        cases h with
        | value he h =>
          cases List.mem_singleton.1 he
          cases h) (by simpa using ⟨ha, hb, hc⟩) rfl (by decide) (by decide)

end OniComb.Hocon
