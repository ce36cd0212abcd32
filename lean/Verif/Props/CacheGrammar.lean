import Verif.Lemmas.CacheGrammar
import Verif.Model.Elements

/-! # C31 for whole grammars -/

namespace OniComb.Stateful
variable {I A : Type}

/-- C31, partial: a grammar with any number of cached parsers in it, also shared ones and cached parsers with cached
parsers inside, gives on every text, whatever the addresses are, exactly the outcome of the grammar without caches,
if no cached parser is asked both at offset 0 and at offset 1 (`g` returns).  Missing: the other grammars, see
`c31_grammar_violated`. -/
theorem c31_grammar_partial {sp : SParser Unit I A} {g p : Parser I A} (h : Caches [] sp g p) (t : List I)
    (ht : g ⟨t, 0⟩ ≠ .diverge) : (∃ o, Parses sp t o) ∧ ∀ o, Parses sp t o → o = parse p t := by
  obtain ⟨hf, hb⟩ := caches_follows h
  have hp : g ⟨t, 0⟩ = p ⟨t, 0⟩ := (hb.out _).resolve_left ht
  obtain ⟨⟨r, σ, h1⟩, h2⟩ := (hf ⟨t, 0⟩ trivial () trivial).resolve_left ht
  refine ⟨⟨_, r, h1, rfl⟩, ?_⟩
  rintro o ⟨r', h3, rfl⟩
  rw [(h2 r' () h3).1, hp]
  rfl

/-- Digits, cached, after `a`; the same cached parser is used in both alternatives and in a loop. -/
private def exGrammar : SParser Unit Char (List Char) :=
  fresh (Stateful.or
    (skipLeft (ofParser (elm 'a')) (skipRight (repeatSep (cache (ofParser elmDigit)) (.from_ 0) (none : Option (SParser _ _ Unit)))
      (ofParser end_)))
    (skipLeft (ofParser (elm 'a')) (repeatSep (cache (ofParser elmDigit)) (.from_ 0) (some (ofParser (elm 'x'))))))

private def exPlain (d : Parser Char Char) : Parser Char (List Char) :=
  OniComb.or (OniComb.skipLeft (elm 'a') (OniComb.skipRight (OniComb.repeat_ d (.from_ 0)) end_))
    (OniComb.skipLeft (elm 'a') (OniComb.repeatSep d (.from_ 0) (some (elm 'x'))))

private theorem exCaches : Caches [] exGrammar (exPlain (only (fun o => decide (1 ≤ o)) elmDigit)) (exPlain elmDigit) :=
  .fresh (fun _ => elmDigit) (fun _ o => decide (1 ≤ o)) (fun _ => .inl rfl) (fun _ => _) fun _ =>
    .or (.skipLeft (.plain _) (.skipRight (.repeat_ _ (.cache _ _ (.plain _))) (.plain _)))
      (.skipLeft (.plain _) (.repeatSep _ (.cache _ _ (.plain _)) (.plain _)))

/-- The first alternative fails after the cached parser has been asked at offsets 1 and 2; the second alternative asks
it again at 1. -/
example : ∀ o, Parses exGrammar "a1x2".toList o → o = .ok ['1', '2'] := by
  have h := c31_grammar_partial exCaches "a1x2".toList (by
    have : (exPlain (only (fun o => decide (1 ≤ o)) elmDigit) ⟨"a1x2".toList, 0⟩) = .success ['1', '2'] 4 := by
      decide +kernel
    rw [this]; simp)
  have h2 : parse (exPlain elmDigit) "a1x2".toList = .ok ['1', '2'] := by decide +kernel
  rw [← h2]; exact h.2

/-- `many0(x).skip_left(q).skip_right(z)` or `many1(a).skip_left(q)` with one cached `q`. -/
private def badGrammar : SParser Unit Char Char :=
  fresh (Stateful.or
    (skipLeft (ofParser (many0 (elm 'x'))) (skipRight (cache (ofParser (elm 'b'))) (ofParser (elm 'z'))))
    (skipLeft (ofParser (many1 (elm 'a'))) (cache (ofParser (elm 'b')))))

private def badPlain (q : Parser Char Char) : Parser Char Char :=
  OniComb.or (OniComb.skipLeft (many0 (elm 'x')) (OniComb.skipRight q (elm 'z')))
    (OniComb.skipLeft (many1 (elm 'a')) q)

private theorem badCaches : Caches [] badGrammar (badPlain (only (fun o => decide (1 ≤ o)) (elm 'b'))) (badPlain (elm 'b')) :=
  .fresh (fun _ => elm 'b') (fun _ o => decide (1 ≤ o)) (fun _ => .inl rfl) (fun _ => _) fun _ =>
    .or (.skipLeft (.plain _) (.skipRight (.cache _ _ (.plain _)) (.plain _)))
      (.skipLeft (.plain _) (.cache _ _ (.plain _)))

/-- C31 is violated by whole grammars too: there is a grammar, built with `many0`, `many1`, `skip_left`, `skip_right`
and `or` around one cached element, that reads a text without the cache, and that rejects it for some choice of
addresses with it. -/
theorem c31_grammar_violated : ∃ (sp : SParser Unit Char Char) (g p : Parser Char Char) (t : List Char),
    Caches [] sp g p ∧ parse p t = .ok 'b' ∧ ∃ e, Parses sp t (.err e) := by
  have e1 : elm 'b' ⟨"ab".toList, 0⟩ = .failure (.mismatch ['a', 'b'] 1 1) .uncommitted := by decide +kernel
  have e2 : many0 (elm 'x') ⟨"ab".toList, 0⟩ = .success [] 0 := by decide +kernel
  have e3 : many1 (elm 'a') ⟨"ab".toList, 0⟩ = .success ['a'] 1 := by decide +kernel
  let f : Res Char Char := .failure (.mismatch ['a', 'b'] 1 1) .uncommitted
  let σ : CacheMap Char Char × Unit := ([((7, 0), f)], ())
  have h1 : cache (ofParser (elm 'b')) ⟨"ab".toList, 0⟩ ([], ()) f σ := by
    refine ⟨7, (), ⟨e1.symm, rfl⟩, rfl⟩
  have h2 : cache (ofParser (elm 'b')) ⟨"ab".toList, 1⟩ σ f σ := ⟨7, rfl, rfl⟩
  have h3 : skipRight (cache (ofParser (elm 'b'))) (ofParser (elm 'z')) ⟨"ab".toList, 0⟩ ([], ()) f σ :=
    ⟨.failure (.mismatch ['a', 'b'] 1 1) .uncommitted, σ, ⟨f, σ, h1, rfl, rfl⟩, rfl, rfl⟩
  have h4 : skipLeft (ofParser (many0 (elm 'x'))) (skipRight (cache (ofParser (elm 'b'))) (ofParser (elm 'z')))
      ⟨"ab".toList, 0⟩ ([], ()) f σ := by
    refine ⟨.failure (.mismatch ['a', 'b'] 1 1) .uncommitted, σ, ⟨_, _, ⟨e2.symm, rfl⟩, ?_⟩, rfl, rfl⟩
    exact ⟨f, σ, h3, rfl, rfl⟩
  have h5 : skipLeft (ofParser (many1 (elm 'a'))) (cache (ofParser (elm 'b'))) ⟨"ab".toList, 0⟩ σ f σ := by
    refine ⟨.failure (.mismatch ['a', 'b'] 1 1) .uncommitted, σ, ⟨_, _, ⟨e3.symm, rfl⟩, ?_⟩, rfl, rfl⟩
    exact ⟨f, σ, h2, rfl, rfl⟩
  exact ⟨badGrammar, _, _, "ab".toList, badCaches, by decide +kernel, .mismatch ['a', 'b'] 1 1, f,
    ⟨_, ⟨f, σ, h4, h5⟩⟩, rfl⟩

end OniComb.Stateful
