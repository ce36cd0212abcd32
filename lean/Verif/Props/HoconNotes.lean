import Verif.Props.HoconBound
import Verif.Props.HoconLoad

/-!
# C149: comments do not cost more

The documents of `Spec/HoconText` with comments around their definitions.
-/

set_option linter.unusedSectionVars false

namespace OniComb.Hocon.Counting
open OniComb OniComb.Hocon OniComb.Hocon.Spec
open OniComb.Uri (Bytes byte bytes)
open OniComb.Uri.Counting (C coll att mapped run_att run_mapped run_many1)
open OniComb.Counted (prim unary)
open OniComb.Steps (left left_advance fits_advance)

section
variable {S : Std} {W L : Nat}

/-- The definitions behind the leading comments: none, or a first one and the others. -/
inductive Lines (S : Std) (W n : Nat) : List (Bytes × Lit) → Bytes → Prop
  | nil : Lines S W n [] []
  | cons {k t y : Bytes} {v : Lit} {ds : List (Bytes × Lit)} {a m : Nat} (hk : PathText k) (hkt : ∃ u, t = k ++ u)
      (h : AtMost a (grammar S (n + 1)).2 (t ++ y)) (ht : Takes (grammar S (n + 1)).2.run t (k, v.value S.parseDecimal) y)
      (hm : LoopCost m (grammar S (n + 1)).2 y) (hle : a + m ≤ 12 * ((t ++ y).length * W) + W)
      (hmany : Many (softGrammar S (n + 1)).2 (t ++ y) (valueEntries S.parseDecimal ((k, v) :: ds)) []) :
      Lines S W n ((k, v) :: ds) (t ++ y)

theorem Lines.loop (hW : Leaves S W L) {n : Nat} {ds : List (Bytes × Lit)} {x : Bytes} (h : Lines S W n ds x) :
    LoopCost (12 * (x.length * W) + W) (grammar S (n + 1)).2 x := by
  cases h with
  | nil =>
    have h1 : AtMost W (grammar S (n + 1)).2 [] := property_end hW
    have h2 : Refuses (grammar S (n + 1)).2.run [] := by
      rw [(grammar_run S (n + 1)).2]
      exact refuses_of (p := (softGrammar S (n + 1)).2) fail_property_end
    have h3 := LoopCost.stop h1 h2
    rwa [List.length_nil, Nat.zero_mul, Nat.mul_zero, Nat.zero_add]
  | cons hk hkt h ht hm hle hmany => exact fun fuel pre items len => Nat.le_trans (LoopCost.cons h ht hm fuel pre items len) hle

theorem Lines.head {n : Nat} {ds : List (Bytes × Lit)} {x : Bytes} (h : Lines S W n ds x) :
    (ds = [] ∧ x = []) ∨ ∃ k r e, PathText k ∧ x = k ++ r ∧ ds.head? = some e ∧ e.1 = k := by
  cases h with
  | nil => exact .inl ⟨rfl, rfl⟩
  | cons hk hkt =>
    obtain ⟨u, rfl⟩ := hkt
    exact .inr ⟨_, _, _, hk, List.append_assoc .., rfl, rfl⟩

theorem Lines.many {n : Nat} {ds : List (Bytes × Lit)} {x : Bytes} (h : Lines S W n ds x) :
    Many (softGrammar S (n + 1)).2 x (valueEntries S.parseDecimal ds) [] := by
  cases h with
  | nil => rw [valueEntries]; exact .nil _
  | cons _ _ _ _ _ _ hmany => exact hmany

theorem lines_noted (hW : Leaves S W L) {n : Nat} (ds : List (Bytes × Lit)) (hn : depthEntries ds ≤ n) (h : DocOk S.parseDecimal ds) :
    ∀ ns, NotesOk ns ds → (noted ns ds).length ≤ L →
      ∃ cs x, noted ns ds = commentLines cs ++ x ∧ (∀ c ∈ cs, CommentLine c) ∧ Lines S W n ds x := by
  have hpos := hW.pos
  induction ds with
  | nil =>
    intro ns hns hl
    cases ns with
    | nil => exact ⟨[], [], rfl, by simp, .nil⟩
    | cons m ns => exact ⟨m.before, [], by simp [noted], hns, .nil⟩
  | cons e ds ih =>
    intro ns hns hl
    obtain ⟨k, v⟩ := e
    have hmany := many_doc S n _ hn h
    have hdoc := h
    rw [DocOk] at h
    rw [depthEntries, depthEntry] at hn
    have hn' : depthEntries ds ≤ n := by omega
    cases ns with
    | nil =>
      rw [noted] at hl
      obtain ⟨t, a, h1, h2, h3, h4⟩ := line_cost hW (n := n) (by omega) hdoc hl
      have hloop := lines_cost hW (n := n) ds hn' h.2.2.2 (by rw [h1, List.length_append] at hl; omega)
      have hkt : ∃ u, t = k ++ u := by
        have e : docText ((k, v) :: ds) = (k ++ (byte '=' :: (v.text ++ [byte '\n']))) ++ docText ds := by rw [docText]; simp
        rw [e] at h1
        exact ⟨_, (List.append_cancel_right h1).symm⟩
      refine ⟨[], t ++ docText ds, by rw [noted, h1]; rfl, by simp, .cons h.1 hkt h2 h3 hloop ?_ (by rw [← h1]; exact hmany)⟩
      rw [List.length_append, Nat.add_mul]
      omega
    | cons m ns =>
      rw [NotesOk] at hns
      rw [noted] at hl
      obtain ⟨cs, x, h1, h2, h3⟩ := ih hn' h.2.2.2 ns hns.2.2 (by simp only [List.length_append, List.length_cons] at hl; omega)
      have hx : Quiet x ∧ NoHead (fun b => b ∈ bytes "=:{[") x := by
        rcases h3.head with ⟨-, rfl⟩ | ⟨k', r, e, hk', rfl, -⟩
        · exact ⟨noHead_nil, noHead_nil⟩
        · exact ⟨pathText_quiet hk', pathText_noOpen hk'⟩
      obtain ⟨hg, hw, hb⟩ := gap_notes (v := v) hns.2.1 h2
      have ha : After v (m.behind ++ byte '\n' :: commentLines cs) x := by
        refine ⟨hg, hx.1, hw x, ?_, ?_⟩
        · intro hnum
          rcases h3.head with ⟨-, rfl⟩ | ⟨k', r, e, hk', rfl, he, rfl⟩
          · exact noHead_nil
          · obtain ⟨b, y, hy, -⟩ := pathText_head hk'
            rw [hy]
            exact noHead_cons.2 (h.2.2.1 hnum e he b (by rw [hy]; rfl))
        · intro hf
          have hb := hb hf
          rw [hb] at hg ⊢
          exact ⟨[], commentLines cs, x, .inl rfl, rfl, hg, hx.1, hx.2⟩
      have e : k ++ byte '=' :: v.text ++ m.behind ++ byte '\n' :: noted ns ds =
          (k ++ (byte '=' :: (v.text ++ (m.behind ++ byte '\n' :: commentLines cs)))) ++ x := by rw [h1]; simp
      have e' : (k ++ (byte '=' :: (v.text ++ (m.behind ++ byte '\n' :: commentLines cs)))) ++ x =
          k ++ ([byte '='] ++ (v.text ++ (m.behind ++ byte '\n' :: commentLines cs) ++ x)) := by simp
      rw [e, List.length_append, e'] at hl
      have hl' : (k ++ ([byte '='] ++ (v.text ++ (m.behind ++ byte '\n' :: commentLines cs) ++ x))).length ≤ L := by omega
      have h5 := lit_cost hW n v (m.behind ++ byte '\n' :: commentLines cs) x (by omega) h.2.1 ha
        (by simp only [List.length_append] at hl' ⊢; omega)
      have h6 := property_cost (cv := .lazy fun _ => (grammar S n).1) (prop := .lazy fun _ => (grammar S n).2) hW h.1 hl' h5.lazy
        (takes_cv S (by omega) h.2.1 ha)
      have h7 : Eats (softGrammar S (n + 1)).2 (k ++ (byte '=' :: (v.text ++ (m.behind ++ byte '\n' :: commentLines cs))))
          (k, v.value S.parseDecimal) x := eats_property h.1 (eats_lit S n v _ x (by omega) h.2.1 ha)
      have hk1 : 1 ≤ k.length := by obtain ⟨b, x, hx, -⟩ := pathText_head h.1; rw [hx]; simp
      have hkW := Nat.mul_le_mul_right W hk1
      refine ⟨m.before, _, by rw [noted, e], hns.1, .cons (a := 2 * W + (1 + 12 * (v.text.length * W))) h.1 ⟨_, rfl⟩ ?_ ?_ (h3.loop hW) ?_ ?_⟩
      · rw [e']; exact h6
      · rw [(grammar_run S (n + 1)).2]
        exact takes_of (p := (softGrammar S (n + 1)).2) h7
      · simp only [List.length_append, List.length_cons, Nat.add_mul, Nat.mul_add]
        omega
      · rw [valueEntries, valueEntry]
        have h8 : Eats (softGrammar S (n + 1)).2 (k ++ (byte '=' :: (v.text ++ (m.behind ++ byte '\n' :: commentLines cs))))
            (k, v.value S.parseDecimal) (x ++ []) := by rw [List.append_nil]; exact h7
        exact Many.cons h8 h3.many

theorem noted_cost (hW : Leaves S W L) {n : Nat} (ds : List (Bytes × Lit)) (ns : List Notes) (hne : ds ≠ []) (hn : depthEntries ds ≤ n)
    (h : DocOk S.parseDecimal ds) (hns : NotesOk ns ds) (hl : (noted ns ds).length ≤ L) :
    (hocon S (n + 1)).steps ⟨noted ns ds, 0⟩ ≤ 12 * ((noted ns ds).length * W) + 3 * W := by
  have hpos := hW.pos
  obtain ⟨cs, x, h1, h2, h3⟩ := lines_noted hW ds hn h ns hns hl
  have hmany : Takes (att (mapped (.many1 (grammar S (n + 1)).2) fun ps => [Value.obj (configFold ps)])).run x
      [Value.obj (configFold (valueEntries S.parseDecimal ds))] [] := by
    rw [run_att, run_mapped, run_many1, (grammar_run S (n + 1)).2]
    have h2 : Eats (many1 (softGrammar S (n + 1)).2) x (valueEntries S.parseDecimal ds) [] := by
      refine eats_many1.2 ⟨?_, h3.many, .uncommitted, fail_property_end⟩
      cases ds with
      | nil => exact absurd rfl hne
      | cons e ds => rw [valueEntries]; simp
    exact takes_of (p := attempt (map (many1 (softGrammar S (n + 1)).2) fun ps => [Value.obj (configFold ps)])) (h2.map _).attempt
  have hq : Quiet x := by
    rcases h3.head with ⟨-, rfl⟩ | ⟨k', r, e, hk', rfl, -⟩
    · exact noHead_nil
    · exact pathText_quiet hk'
  have hcost : AtMost (12 * (x.length * W) + W)
      (att (mapped (.many1 (grammar S (n + 1)).2) fun ps => [Value.obj (configFold ps)])) (x ++ []) := by
    rw [List.append_nil]
    cases h3 with
    | nil => exact absurd rfl hne
    | cons _ _ ha ht hm hle _ => exact AtMost.mono (p := .many1 (grammar S (n + 1)).2) (AtMost.many1 ha ht hm) hle
  have h4 : AtMost (12 * (x.length * W) + W) (config (grammar S (n + 1)).1 (grammar S (n + 1)).2) (x ++ []) :=
    (hcost.or_taken hmany).or_taken (or_left hmany)
  rw [List.append_nil] at h4
  rw [h1] at hl ⊢
  have hsoc : Takes spaceOrComment.run (commentLines cs) () x := by
    rw [soc_run]
    exact takes_of (p := Hocon.spaceOrComment) (eats_gap ⟨[], cs, blanks_nil, h2, rfl⟩ hq)
  have h5 : AtMost (W + (12 * (x.length * W) + W)) (.skipLeft spaceOrComment (config (grammar S (n + 1)).1 (grammar S (n + 1)).2))
      (commentLines cs ++ x) := AtMost.both (Steps.both_skipLeft spaceOrComment _) (hW.soc.at hl) hsoc h4
  have h6 := h5 []
  rw [List.nil_append, List.length_nil] at h6
  show Counted.steps _ _ + (Counted.run _ _).onSuccess _ ≤ _
  refine Nat.le_trans (Nat.add_le_add h6 (show _ ≤ 1 from ?_)) ?_
  · cases (Counted.skipLeft spaceOrComment (config (grammar S (n + 1)).1 (grammar S (n + 1)).2)).run ⟨commentLines cs ++ x, 0⟩ <;>
      simp [Res.onSuccess, prim]
  · rw [List.length_append, Nat.add_mul]
    omega

theorem doc_le_noted (ds : List (Bytes × Lit)) : ∀ ns, (docText ds).length ≤ (noted ns ds).length := by
  induction ds with
  | nil => intro ns; exact Nat.zero_le _
  | cons e ds ih =>
    intro ns
    obtain ⟨k, v⟩ := e
    cases ns with
    | nil => exact Nat.le_refl _
    | cons m ns =>
      have := ih ns
      rw [docText, noted]
      simp only [List.length_append, List.length_cons]
      omega

end

/-- **C149, partly**: nor do comments in front of the definitions and behind the values of such a document make more of the steps. -/
theorem c149_comments_partial : ∃ K, ∀ (S : Std) (ds : List (Bytes × Lit)) (ns : List Notes), ds ≠ [] → DocOk S.parseDecimal ds →
    NotesOk ns ds → ∀ n, (noted ns ds).length < n → (∃ es, parse (Hocon.hocon S n) (noted ns ds) = .ok [.obj es]) ∧
      (hocon S n).steps ⟨noted ns ds, 0⟩ ≤ K * ((noted ns ds).length + 1) ^ 4 := by
  obtain ⟨K, hK⟩ := leaves
  refine ⟨15 * K, fun S ds ns hne h hns n hn => ?_⟩
  obtain ⟨m, rfl⟩ : ∃ m, n = m + 1 := ⟨n - 1, by omega⟩
  have hd := docDepth_le ds hne h
  have hle := doc_le_noted ds ns
  refine ⟨⟨_, hocon_noted S m ds ns hne (by omega) h hns⟩, ?_⟩
  have h1 := noted_cost (hK S (noted ns ds).length) (n := m) ds ns hne (by omega) h hns (Nat.le_refl _)
  refine Nat.le_trans h1 ?_
  generalize (noted ns ds).length = l
  have e : 15 * K * (l + 1) ^ 4 = 15 * ((l + 1) * (K * (l + 1) ^ 3)) := by
    rw [mul_left_succ, Nat.mul_assoc]
  rw [e, Nat.add_mul]
  omega

/-- The theorem applies to a document with a line of comment in front of the first definition and a comment behind it. -/
example : sampleDoc ≠ [] ∧ DocOk decDigits.parseDecimal sampleDoc ∧ NotesOk sampleNotes sampleDoc :=
  ⟨by simp [sampleDoc], sampleDoc_ok, sampleNotes_ok⟩

end OniComb.Hocon.Counting
