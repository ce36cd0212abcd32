import Verif.Model.UriSteps
import Verif.Lemmas.Lin
import Verif.Lemmas.UriParts

/-!
# C147: a URI is read in a number of steps proportional to its length

`Counting.uri` counts the runs of parsers without parts and the elements of literals that are compared.
-/

namespace OniComb.Uri.Counting
open OniComb OniComb.Uri OniComb.Steps
open OniComb.Counted (prim unary)

section
variable {A B : Type} {a w w' lo lo' : Nat}

/-- A constant number of steps. -/
abbrev Const (w lo : Nat) (c : C A) : Prop := Fair 0 w lo Never Never c

theorem const_and {p : C A} {q : C B} (hp : Const w lo p) (hq : Const w' lo' q) : Const (w + w') (lo + lo') (.andThen p q) :=
  Fair.both_const (both_andThen _ _) hp hq
theorem const_left {p : C A} {q : C B} (hp : Const w lo p) (hq : Const w' lo' q) : Const (w + w') (lo + lo') (.skipLeft p q) :=
  Fair.both_const (both_skipLeft _ _) hp hq
theorem const_right {p : C A} {q : C B} (hp : Const w lo p) (hq : Const w' lo' q) : Const (w + w') (lo + lo') (.skipRight p q) :=
  Fair.both_const (both_skipRight _ _) hp hq
theorem const_tried {p : C A} (hp : Const w lo p) (f : A → Option B) : Const w lo (tried p f) := (hp.mapRes (starts_any _) f).const
theorem const_coll {p : C A} (hp : Const w lo p) : Const w lo (coll p) := hp.unary same_collect
theorem const_named {p : C A} (hp : Const w lo p) (l : String) : Const w lo (named p l) := hp.unary (same_name l)
theorem const_att {p : C A} (hp : Const w lo p) : Const w lo (att p) := hp.unary same_attempt
theorem const_mapped {p : C A} (hp : Const w lo p) (f : A → B) : Const w lo (mapped p f) := hp.unary (same_map f)
theorem const_txt {p : C A} (hp : Const w lo p) : Const w lo (txt p) := const_tried (const_mapped (const_coll hp) _) _
theorem const_lit (c : Char) : Const 1 1 (lit c) := fair_elmPred _
theorem const_among (s : String) : Const 1 1 (among s) := fair_elmOfSet _
theorem const_low {p : C A} (hp : Const w lo p) (h : lo' ≤ lo) : Const w lo' p :=
  hp.mono (Nat.le_refl _) (Nat.le_refl _) h (fun _ h => h) fun _ h => h

theorem lin_tried {p : C A} (hp : Lin a w p) (f : A → Option B) : Lin a w (tried p f) := hp.unary (mapRes_ok f)
theorem lin_coll {p : C A} (hp : Lin a w p) : Lin a w (coll p) := hp.unary same_collect.ok
theorem lin_named {p : C A} (hp : Lin a w p) (l : String) : Lin a w (named p l) := hp.unary (same_name l).ok
theorem lin_att {p : C A} (hp : Lin a w p) : Lin a w (att p) := hp.unary same_attempt.ok
theorem lin_mapped {p : C A} (hp : Lin a w p) (f : A → B) : Lin a w (mapped p f) := hp.unary (same_map f).ok
theorem lin_txt {p : C A} (hp : Lin a w p) : Lin a w (txt p) := lin_tried (lin_mapped (lin_coll hp) _) _

theorem unwrap_ok (f : A → Option B) (p : Parser UInt8 A) (s : State UInt8) (v : B) (n : Nat) (h : mapUnwrap p f s = .success v n) :
    ∃ v', p s = .success v' n := by
  simp only [mapUnwrap] at h
  cases hp : p s with
  | success v' n' =>
    simp only [hp] at h
    cases hf : f v' with
    | some w => simp only [hf, Res.success.injEq] at h; exact ⟨v', by rw [h.2]⟩
    | none => simp [hf] at h
  | _ => simp [hp] at h

end

/-! ### Characters -/

theorem const_pct : Const 3 3 pctEncoded :=
  const_named (const_coll (const_and (const_and (const_lit _) (fair_elmPred _)) (fair_elmPred _))) _

theorem const_unreserved : Const 3 1 unreserved :=
  const_named (const_coll (((fair_elmPred _).or_const (fair_elmPred _)).or_const (const_among _))) _

theorem const_subDelims : Const 1 1 subDelims := const_coll (const_named (const_among _) _)

theorem const_pchar : Const 8 1 pchar :=
  const_named (const_coll (((const_unreserved.or_const (const_low const_pct (by omega))).or_const const_subDelims).or_const
    (const_coll (const_among _)))) _

theorem const_queryChar : Const 9 1 (.or pcharWithoutEqAmp (coll (among "/?"))) :=
  (const_named (const_coll (((const_unreserved.or_const (const_low const_pct (by omega))).or_const
    (const_coll (const_named (const_among _) _))).or_const (const_coll (const_among _)))) _).or_const (const_coll (const_among _))

theorem const_regChar : Const 7 1 regChar :=
  ((const_att const_unreserved).or_const (const_att (const_low const_pct (by omega)))).or_const const_subDelims

/-! ### Hosts -/

theorem const_decOctet : Const 12 1 decOctet :=
  const_named (const_tried (const_txt (((((const_att (const_coll (const_low (const_and (const_and (const_lit _) (const_lit _)) (fair_elmOfSet _))
    (by omega)))).or_const (const_att (const_coll (const_low (const_and (const_and (const_lit _) (fair_elmOfSet _)) (fair_elmPred _))
    (by omega))))).or_const (const_att (const_coll (const_low (const_and (const_and (const_lit _) (fair_elmPred _)) (fair_elmPred _))
    (by omega))))).or_const (const_att (const_coll (const_low (const_and fair_digit19 (fair_elmPred _)) (by omega))))).or_const
    (const_coll (fair_elmPred _)))) _) _

theorem const_ipv4 : Const 51 7 ipv4Address :=
  const_named (const_mapped (const_and (const_right (const_and (const_right (const_and (const_right const_decOctet (const_lit _)) const_decOctet)
    (const_lit _)) const_decOctet) (const_lit _)) const_decOctet) _) _

theorem const_h16 : Const 6 0 h16 :=
  const_named (const_mapped (const_tried (const_txt ((fair_elmPred _).manyNM 1 4)) _) _) _

theorem const_ls32 : Const 64 0 ls32 :=
  (const_att (const_mapped (const_low (const_and (const_right const_h16 (const_lit _)) const_h16) (Nat.zero_le _)) _)).or_const
    (const_mapped (const_low const_ipv4 (Nat.zero_le _)) _)

theorem const_colons (n : Nat) : Const (7 * (n + 2)) 0 (h16Colons n) := Fair.count (const_right const_h16 (const_lit _)) n

theorem const_sep : Const 3 0 (.seq (bytes "::") : C Bytes) := const_low (fair_seq (bytes "::")) (Nat.zero_le _)

theorem const_p1 (n : Nat) : Const (7 * (n + 2) + 7) 0 (ipv6P1 n) :=
  (const_coll (Fair.opt (const_mapped (const_and const_h16 (Fair.manyNM (const_left (const_lit _) const_h16) 0 n)) _))).mono
    (Nat.le_refl _) (by omega) (Nat.le_refl _) (fun _ h => h) fun _ h => h

theorem lin_p2 (n m : Nat) : Lin 0 (7 * (n + 2) + 7 + 3 + (7 * (m + 2) + 64)) (ipv6P2 n m) :=
  (const_coll (const_and (const_and (const_p1 n) const_sep)
    (const_coll (const_and (Fair.count (const_and const_h16 (const_lit _)) m) const_ls32)))).lin

theorem lin_to (std : Std) {a w : Nat} {p : C Bytes} (h : Lin a w p) : Lin a w (toIpv6 std p) :=
  lin_tried (lin_tried (lin_mapped h _) _) _

theorem lin_ipv6 (std : Std) : Lin 0 1200 (ipv6Address std) := by
  have h1 : Lin 0 _ ipv6Address1 := (const_and (const_colons 6) const_ls32).lin.unary (unwrap_ok _)
  have h2 : Lin 0 _ ipv6Address2 := (const_and (const_left const_sep (const_colons 5)) const_ls32).lin.unary (unwrap_ok _)
  have h3 : Lin 0 _ ipv6Address3 :=
    (const_and (const_and (const_right const_h16.opt const_sep) (const_colons 4)) const_ls32).lin.unary (unwrap_ok _)
  have h7 := (const_coll (const_and (const_and (const_p1 4) const_sep) const_ls32)).lin
  have h8 := (const_coll (const_and (const_and (const_p1 5) const_sep) const_h16)).lin
  have h9 := (const_coll (const_and (const_p1 5) const_sep)).lin
  exact (lin_named (((((((((lin_att h1).or (lin_att h2)).or (lin_att h3)).or (lin_att (lin_to std (lin_p2 1 3)))).or
    (lin_att (lin_to std (lin_p2 2 2)))).or (lin_att (lin_to std (lin_p2 3 1)))).or (lin_att (lin_to std h7))).or
    (lin_att (lin_to std h8))).or (lin_to std h9)) _).mono (by decide) (by decide)

theorem lin_future : Lin 6 8 ipvFuture :=
  lin_named (lin_txt (Lin.both (both_andThen _ _) (Lin.both (both_andThen _ _) (Lin.both (both_andThen _ _) (const_lit _).lin
    (Fair.repeatFrom (fair_elmPred _) (Nat.le_refl 1)).lin) (const_lit _).lin)
    (Fair.repeatFrom ((const_unreserved.or_const const_subDelims).or_const (const_coll (const_lit _))) (Nat.le_refl 1)).lin)) _

theorem lin_regs (n : Nat) (h : n ≤ 1) : Lin 7 7 (txt (.repeatFrom n regChar)) := lin_txt (Fair.repeatFrom const_regChar h).lin

theorem lin_host (std : Std) : Lin 13 1300 (host std) := by
  have h1 : Lin 6 1210 (ipLiteral std) :=
    lin_named (Lin.both (both_skipRight _ _) (Lin.both (both_skipLeft _ _) (const_lit _).lin
      ((lin_att (lin_mapped (lin_ipv6 std) _)).or (lin_mapped lin_future _))) (const_lit _).lin) _
  exact (lin_named (((lin_att (lin_mapped h1 _)).or (lin_att (lin_mapped const_ipv4.lin _))).or
    (lin_named (lin_mapped (lin_regs 1 (Nat.le_refl _)) _) _)) _).mono (by decide) (by decide)

theorem lin_userInfo : Lin 14 16 userInfo :=
  lin_named (lin_mapped (Lin.both (both_andThen _ _) (lin_regs 0 (Nat.zero_le _))
    (Lin.opt (Lin.both (both_skipLeft _ _) (const_lit _).lin (lin_regs 1 (Nat.le_refl _))))) _) _

theorem lin_port : Lin 1 1 port := lin_named (lin_tried (lin_tried (Fair.repeatFrom (fair_elmPred _) (Nat.zero_le _)).lin _) _) _

theorem lin_authority (std : Std) : Lin 28 1321 (authority std) :=
  lin_mapped (Lin.both (both_andThen _ _) (Lin.both (both_andThen _ _) (Lin.opt (Lin.both (both_skipRight _ _) lin_userInfo (const_lit _).lin))
    (lin_host std)) (Lin.opt (Lin.both (both_skipLeft _ _) (const_lit _).lin lin_port))) _

/-! ### Paths -/

theorem fair_segment : Fair 8 8 0 Never Never segment := ((Fair.repeatFrom const_pchar (Nat.zero_le _)).unary same_collect).unary (same_name _)

theorem fair_slash : Fair 8 9 1 Never Never (.andThen (lit '/') segment) := Fair.both_const (both_andThen _ _) (const_lit _) fair_segment

theorem lin_abempty (n : Nat) (h : n ≤ 1) : Lin 17 9 (pathAbempty n) := by
  have h1 : Fair 8 9 1 Never _ (txt (.andThen (lit '/') segment)) :=
    ((fair_slash.unary same_collect).unary (same_map _)).mapRes (starts_any _) _
  exact lin_named (lin_mapped (Fair.repeatFrom h1 h).lin _) _

theorem lin_rootless : Lin 25 17 pathRootless :=
  lin_named (lin_mapped (Lin.unary (unwrap_ok _) (lin_mapped (Lin.both (both_andThen _ _)
    (lin_named (lin_coll (Fair.repeatFrom const_pchar (Nat.le_refl _)).lin) _)
    (Fair.repeatFrom (fair_slash.unary same_collect) (Nat.zero_le _)).lin) _)) _) _

theorem lin_hierPart (std : Std) : Lin 87 1400 (hierPart std) :=
  (Lin.opt ((lin_att (lin_mapped (Lin.both (both_andThen _ _) (Lin.both (both_skipLeft _ _) (fair_seq (bytes "//")).lin (lin_authority std))
    (lin_abempty 0 (Nat.zero_le _))) _)).or (lin_mapped ((lin_att (lin_abempty 1 (Nat.le_refl _))).or lin_rootless) _))).mono
    (by decide) (by decide)

/-! ### The counted parsers are the parsers -/

section
variable {A B : Type}

theorem run_or (p q : C A) : (Counted.or p q).run = or p.run q.run := rfl
theorem run_and (p : C A) (q : C B) : (Counted.andThen p q).run = andThen p.run q.run := rfl
theorem run_left (p : C A) (q : C B) : (Counted.skipLeft p q).run = skipLeft p.run q.run := rfl
theorem run_right (p : C A) (q : C B) : (Counted.skipRight p q).run = skipRight p.run q.run := rfl
theorem run_opt (p : C A) : (Counted.opt p).run = opt p.run := rfl
theorem run_prim (p : Parser UInt8 A) : (prim p).run = p := rfl
theorem run_seq (t : Bytes) : (Counted.seq t).run = seq t := rfl
theorem run_unary (G : Parser UInt8 A → Parser UInt8 B) (p : C A) : (unary G p).run = G p.run := rfl
theorem run_from (n : Nat) (p : C A) : (Counted.repeatFrom n p).run = repeat_ p.run (.from_ n) := rfl
theorem run_many0 (p : C A) : (Counted.many0 p).run = many0 p.run := rfl
theorem run_many1 (p : C A) : (Counted.many1 p).run = many1 p.run := rfl
theorem run_manyNM (p : C A) (n m : Nat) : (Counted.manyNM p n m).run = manyNM p.run n m := rfl
theorem run_count (p : C A) (n : Nat) : (Counted.count p n).run = count p.run n := rfl
theorem run_coll (p : C A) : (coll p).run = collect p.run := rfl
theorem run_named (p : C A) (l : String) : (named p l).run = name p.run l := rfl
theorem run_att (p : C A) : (att p).run = attempt p.run := rfl
theorem run_mapped (p : C A) (f : A → B) : (mapped p f).run = map p.run f := rfl
theorem run_tried (p : C A) (f : A → Option B) : (tried p f).run = mapRes p.run f := rfl
theorem run_txt (p : C A) : (txt p).run = text p.run := rfl
theorem run_lit (c : Char) : (lit c).run = elm (byte c) := rfl
theorem run_among (t : String) : (among t).run = elmOf (bytes t) := rfl

end

macro "runs" "[" ds:Lean.Parser.Tactic.simpLemma,* "]" : tactic =>
  `(tactic| simp only [run_or, run_and, run_left, run_right, run_opt, run_prim, run_seq, run_unary, run_from, run_many0, run_many1,
    run_manyNM, run_count, run_coll, run_named, run_att, run_mapped, run_tried, run_txt, run_lit, run_among, $ds,*])

theorem unreserved_run : unreserved.run = Uri.unreserved := by runs [unreserved, Uri.unreserved]
theorem pct_run : pctEncoded.run = Uri.pctEncoded := by runs [pctEncoded, Uri.pctEncoded]
theorem subDelims_run : subDelims.run = Uri.subDelims := by runs [subDelims, Uri.subDelims]
theorem pchar_run : pchar.run = Uri.pchar := by runs [pchar, Uri.pchar, unreserved_run, pct_run, subDelims_run]
theorem regChar_run : regChar.run = Uri.regChar := by runs [regChar, Uri.regChar, unreserved_run, pct_run, subDelims_run]
theorem codePoint_run : codePoint.run = Uri.codePoint := by
  runs [codePoint, Uri.codePoint, pcharWithoutEqAmp, Uri.pcharWithoutEqAmp, subDelimsWithoutEqAmp, Uri.subDelimsWithoutEqAmp,
    unreserved_run, pct_run]
theorem query_run : query.run = OniComb.Uri.query := by runs [query, OniComb.Uri.query, keyValues, Uri.keyValues, codePoint_run]
theorem fragment_run : fragment.run = OniComb.Uri.fragment := by runs [fragment, OniComb.Uri.fragment, pchar_run]
theorem scheme_run : scheme.run = OniComb.Uri.scheme := by runs [scheme, OniComb.Uri.scheme]
theorem decOctet_run : decOctet.run = Uri.decOctet := by runs [decOctet, Uri.decOctet]
theorem ipv4_run : ipv4Address.run = Uri.ipv4Address := by runs [ipv4Address, Uri.ipv4Address, decOctet_run]
theorem h16_run : h16.run = Uri.h16 := by runs [h16, Uri.h16]
theorem ls32_run : ls32.run = Uri.ls32 := by runs [ls32, Uri.ls32, h16_run, ipv4_run]
theorem p1_run (n : Nat) : (ipv6P1 n).run = Uri.ipv6P1 n := by runs [ipv6P1, Uri.ipv6P1, h16_run]
theorem p2_run (n m : Nat) : (ipv6P2 n m).run = Uri.ipv6P2 n m := by runs [ipv6P2, Uri.ipv6P2, h16_run, p1_run, ls32_run]
theorem ipv6_run (std : Std) : (ipv6Address std).run = Uri.ipv6Address std := by
  runs [ipv6Address, Uri.ipv6Address, ipv6Address1, Uri.ipv6Address1, ipv6Address2, Uri.ipv6Address2, ipv6Address3, Uri.ipv6Address3,
    h16Colons, Uri.h16Colons, toIpv6, Uri.toIpv6, ipv6Short, p1_run, p2_run, ls32_run, h16_run]
theorem host_run (std : Std) : (host std).run = Uri.host std := by
  runs [host, Uri.host, ipLiteral, Uri.ipLiteral, ipv6_run, ipvFuture, Uri.ipvFuture, unreserved_run, subDelims_run, ipv4_run, regName,
    Uri.regName, regChar_run]
theorem authority_run (std : Std) : (authority std).run = OniComb.Uri.authority std := by
  runs [authority, OniComb.Uri.authority, userInfo, OniComb.Uri.userInfo, port, OniComb.Uri.port, host_run, regChar_run]
theorem hierPart_run (std : Std) : (hierPart std).run = Uri.hierPart std := by
  runs [hierPart, Uri.hierPart, authority_run, pathAbempty, Uri.pathAbempty, pathRootless, Uri.pathRootless, segment, Uri.segment,
    segmentNz, Uri.segmentNz, pchar_run]
theorem uri_run (std : Std) : (uri std).run = Uri.uri std := by
  runs [uri, Uri.uri, scheme_run, hierPart_run, query_run, fragment_run]

/-! ### Queries -/

theorem codePoint_firm (s : State UInt8) (e : PError UInt8) (c : Committed) (hs : s.offset ≤ s.input.length) :
    codePoint.run s ≠ .failure e c := by
  intro h
  rw [codePoint_run] at h
  have hd : s = ⟨s.input.take s.offset ++ s.input.drop s.offset, (s.input.take s.offset).length + 0⟩ := by
    rw [List.take_append_drop, List.length_take, Nat.min_eq_left hs, Nat.add_zero]
  obtain ⟨u, v, hu, he⟩ := codePoint_total (s.input.drop s.offset)
  rw [hd] at h
  rcases nice_cases (Good.nice (p := Uri.codePoint)) (s.input.take s.offset) (s.input.drop s.offset) 0 (Nat.zero_le _) with
    ⟨v', n', h1, -, -⟩ | ⟨e1, e2, c1, -, h2⟩ | ⟨h1, -⟩
  · rw [h1] at h; cases h
  · unfold Eats at he
    rw [← hu, h2] at he
    cases he
  · rw [h1] at h; cases h

theorem fair_codePoint : Fair 9 9 0 Never Never codePoint := by
  have h := ((((Fair.repeatFrom const_queryChar (Nat.zero_le _)).unary same_collect).unary (same_map id)).mapRes (starts_any _) fromUtf8)
  exact ⟨h.ok, h.other, fun s e st hs hr _ => (codePoint_firm s e st hs hr).elim⟩

theorem fair_keyValues : Fair 9 20 0 Never (fun _ => True) keyValues :=
  (Fair.both (both_andThen _ _) fair_codePoint (starts_any _)
    (Fair.opt (Fair.both_const (both_skipLeft _ _) (const_lit _) fair_codePoint)) (misses_never _)).mono (Nat.le_refl _) (Nat.le_refl _)
    (Nat.le_refl _) (fun _ h => h) fun _ _ => trivial

theorem lin_query : Lin 39 41 query := by
  have h1 := Fair.both (both_skipLeft _ _) ((const_lit '&').mono (Nat.zero_le 9) (Nat.le_refl _) (Nat.le_refl _) (fun _ h => h) fun _ h => h)
    (starts_any _) fair_keyValues (misses_never _)
  exact lin_mapped (Lin.both (both_andThen _ _) fair_keyValues.lin (Fair.repeatFrom h1 (Nat.zero_le _)).lin) _

theorem lin_fragment : Lin 9 9 fragment :=
  lin_named (lin_txt (Fair.repeatFrom (const_pchar.or_const (const_coll (const_among _))) (Nat.zero_le _)).lin) _

theorem lin_scheme : Lin 3 4 scheme :=
  lin_mapped (lin_txt (Lin.both (both_andThen _ _) (fair_elmPred _).lin
    (Fair.repeatFrom (((fair_elmPred _).or_const (fair_elmPred _)).or_const (const_among _)) (Nat.zero_le _)).lin)) _

theorem lin_uri (std : Std) : Lin 138 1500 (uri std) :=
  (lin_mapped (Lin.both (both_andThen _ _) (Lin.both (both_andThen _ _) (Lin.both (both_andThen _ _) (Lin.both (both_skipRight _ _)
    lin_scheme.opt (const_lit _).lin) (lin_hierPart std)) (Lin.opt (Lin.both (both_skipLeft _ _) (const_lit _).lin lin_query)))
    (Lin.opt (Lin.both (both_skipLeft _ _) (const_lit _).lin lin_fragment))) _).mono (by decide) (by decide)

/-- **C147**: what the counted parser gives is what `Uri::parse` gives. -/
theorem c147_counts (std : Std) (t : Bytes) : Uri.parse std t = OniComb.parse (uri std).run t := by rw [uri_run]; rfl

/-- **C147**: every text, accepted or rejected, takes at most 138 steps for each of its bytes, and 1500. -/
theorem c147_linear (std : Std) (t : Bytes) : (uri std).steps ⟨t, 0⟩ ≤ 138 * t.length + 1500 :=
  (lin_uri std).le ⟨t, 0⟩ (Nat.zero_le _)

/-! ### A lower bound -/

section
variable {A B : Type}

theorem reads_tried {p : C A} (h : Steps.Reads p) (f : A → Option B) : Steps.Reads (tried p f) := h.mapRes f
theorem reads_coll {p : C A} (h : Steps.Reads p) : Steps.Reads (coll p) := h.unary same_collect
theorem reads_named {p : C A} (h : Steps.Reads p) (l : String) : Steps.Reads (named p l) := h.unary (same_name l)
theorem reads_att {p : C A} (h : Steps.Reads p) : Steps.Reads (att p) := h.unary same_attempt
theorem reads_mapped {p : C A} (h : Steps.Reads p) (f : A → B) : Steps.Reads (mapped p f) := h.unary (same_map f)
theorem reads_txt {p : C A} (h : Steps.Reads p) : Steps.Reads (txt p) := reads_tried (reads_mapped (reads_coll h) _) _
theorem reads_unwrap {p : C A} (h : Steps.Reads p) (f : A → Option B) : Steps.Reads (unary (mapUnwrap · f) p) := fun s v n hr => by
  obtain ⟨v', hv⟩ := unwrap_ok f p.run s v n hr
  exact h s v' n hv
theorem reads_lit (c : Char) : Steps.Reads (lit c) := reads_elmPred _
theorem reads_among (t : String) : Steps.Reads (among t) := reads_elmOfSet _
theorem reads_and {p : C A} {q : C B} (hp : Steps.Reads p) (hq : Steps.Reads q) : Steps.Reads (.andThen p q) :=
  Reads.both (both_andThen _ _) hp hq
theorem reads_left {p : C A} {q : C B} (hp : Steps.Reads p) (hq : Steps.Reads q) : Steps.Reads (.skipLeft p q) :=
  Reads.both (both_skipLeft _ _) hp hq
theorem reads_right {p : C A} {q : C B} (hp : Steps.Reads p) (hq : Steps.Reads q) : Steps.Reads (.skipRight p q) :=
  Reads.both (both_skipRight _ _) hp hq
theorem reads_manyNM {p : C A} (h : Steps.Reads p) (n m : Nat) : Steps.Reads (.manyNM p n m) := h.repeatSep _ fun _ hq => by cases hq

end

theorem reads_pct : Steps.Reads pctEncoded :=
  reads_named (reads_coll (reads_and (reads_and (reads_lit _) (reads_elmPred _)) (reads_elmPred _))) _

theorem reads_unreserved : Steps.Reads unreserved :=
  reads_named (reads_coll (((reads_elmPred _).or (reads_elmPred _)).or (reads_among _))) _

theorem reads_subDelims : Steps.Reads subDelims := reads_coll (reads_named (reads_among _) _)

theorem reads_pchar : Steps.Reads pchar :=
  reads_named (reads_coll (((reads_unreserved.or reads_pct).or reads_subDelims).or (reads_coll (reads_among _)))) _

theorem reads_regChar : Steps.Reads regChar := ((reads_att reads_unreserved).or (reads_att reads_pct)).or reads_subDelims

theorem reads_codePoint : Steps.Reads codePoint :=
  reads_txt (((reads_named (reads_coll (((reads_unreserved.or reads_pct).or (reads_coll (reads_named (reads_among _) _))).or
    (reads_coll (reads_among _)))) _).or (reads_coll (reads_among _))).repeatFrom 0)

theorem reads_decOctet : Steps.Reads decOctet :=
  reads_named (reads_tried (reads_txt (((((reads_att (reads_coll (reads_and (reads_and (reads_lit _) (reads_lit _)) (reads_elmOfSet _)))).or
    (reads_att (reads_coll (reads_and (reads_and (reads_lit _) (reads_elmOfSet _)) (reads_elmPred _))))).or
    (reads_att (reads_coll (reads_and (reads_and (reads_lit _) (reads_elmPred _)) (reads_elmPred _))))).or
    (reads_att (reads_coll (reads_and reads_digit19 (reads_elmPred _))))).or (reads_coll (reads_elmPred _)))) _) _

theorem reads_ipv4 : Steps.Reads ipv4Address :=
  reads_named (reads_mapped (reads_and (reads_right (reads_and (reads_right (reads_and (reads_right reads_decOctet (reads_lit _)) reads_decOctet)
    (reads_lit _)) reads_decOctet) (reads_lit _)) reads_decOctet) _) _

theorem reads_h16 : Steps.Reads h16 := reads_named (reads_mapped (reads_tried (reads_txt (reads_manyNM (reads_elmPred _) 1 4)) _) _) _

theorem reads_ls32 : Steps.Reads ls32 :=
  (reads_att (reads_mapped (reads_and (reads_right reads_h16 (reads_lit _)) reads_h16) _)).or (reads_mapped reads_ipv4 _)

theorem reads_colons (n : Nat) : Steps.Reads (h16Colons n) := reads_manyNM (reads_right reads_h16 (reads_lit _)) n n

theorem reads_p1 (n : Nat) : Steps.Reads (ipv6P1 n) :=
  reads_coll (Reads.opt (reads_mapped (reads_and reads_h16 (reads_manyNM (reads_left (reads_lit _) reads_h16) 0 n)) _))

theorem reads_p2 (n m : Nat) : Steps.Reads (ipv6P2 n m) :=
  reads_coll (reads_and (reads_and (reads_p1 n) (reads_seq _)) (reads_coll (reads_and (reads_manyNM (reads_and reads_h16 (reads_lit _)) m m)
    reads_ls32)))

theorem reads_to (std : Std) {p : C Bytes} (h : Steps.Reads p) : Steps.Reads (toIpv6 std p) := reads_tried (reads_tried (reads_mapped h _) _) _

theorem reads_ipv6 (std : Std) : Steps.Reads (ipv6Address std) :=
  reads_named (((((((((reads_att (reads_unwrap (reads_and (reads_colons 6) reads_ls32) _)).or
    (reads_att (reads_unwrap (reads_and (reads_left (reads_seq _) (reads_colons 5)) reads_ls32) _))).or
    (reads_att (reads_unwrap (reads_and (reads_and (reads_right reads_h16.opt (reads_seq _)) (reads_colons 4)) reads_ls32) _))).or
    (reads_att (reads_to std (reads_p2 1 3)))).or (reads_att (reads_to std (reads_p2 2 2)))).or (reads_att (reads_to std (reads_p2 3 1)))).or
    (reads_att (reads_to std (reads_coll (reads_and (reads_and (reads_p1 4) (reads_seq _)) reads_ls32))))).or
    (reads_att (reads_to std (reads_coll (reads_and (reads_and (reads_p1 5) (reads_seq _)) reads_h16))))).or
    (reads_to std (reads_coll (reads_and (reads_p1 5) (reads_seq _))))) _

theorem reads_host (std : Std) : Steps.Reads (host std) := by
  have hf : Steps.Reads ipvFuture :=
    reads_named (reads_txt (reads_and (reads_and (reads_and (reads_lit _) ((reads_elmPred _).repeatFrom 1)) (reads_lit _))
      (((reads_unreserved.or reads_subDelims).or (reads_coll (reads_lit _))).repeatFrom 1))) _
  have hl : Steps.Reads (ipLiteral std) :=
    reads_named (reads_right (reads_left (reads_lit _) ((reads_att (reads_mapped (reads_ipv6 std) _)).or (reads_mapped hf _))) (reads_lit _)) _
  exact reads_named (((reads_att (reads_mapped hl _)).or (reads_att (reads_mapped reads_ipv4 _))).or
    (reads_named (reads_mapped (reads_txt (reads_regChar.repeatFrom 1)) _) _)) _

theorem reads_authority (std : Std) : Steps.Reads (authority std) := by
  have hu : Steps.Reads userInfo :=
    reads_named (reads_mapped (reads_and (reads_txt (reads_regChar.repeatFrom 0))
      (Reads.opt (reads_left (reads_lit _) (reads_txt (reads_regChar.repeatFrom 1))))) _) _
  have hp : Steps.Reads port := reads_named (reads_tried (reads_tried ((reads_elmPred _).repeatFrom 0) _) _) _
  exact reads_mapped (reads_and (reads_and (Reads.opt (reads_right hu (reads_lit _))) (reads_host std))
    (Reads.opt (reads_left (reads_lit _) hp))) _

theorem reads_hierPart (std : Std) : Steps.Reads (hierPart std) := by
  have hs : Steps.Reads (.andThen (lit '/') segment) := reads_and (reads_lit _) (reads_named (reads_coll (reads_pchar.repeatFrom 0)) _)
  have ha : ∀ n, Steps.Reads (pathAbempty n) := fun n => reads_named (reads_mapped ((reads_txt hs).repeatFrom n) _) _
  have hr : Steps.Reads pathRootless :=
    reads_named (reads_mapped (reads_unwrap (reads_mapped (reads_and (reads_named (reads_coll (reads_pchar.repeatFrom 1)) _)
      ((reads_coll hs).repeatFrom 0)) _) _) _) _
  exact Reads.opt ((reads_att (reads_mapped (reads_and (reads_left (reads_seq _) (reads_authority std)) (ha 0)) _)).or
    (reads_mapped ((reads_att (ha 1)).or hr) _))

theorem reads_uri (std : Std) : Steps.Reads (uri std) := by
  have hk : Steps.Reads keyValues := reads_and reads_codePoint (Reads.opt (reads_left (reads_lit _) reads_codePoint))
  have hq : Steps.Reads query := reads_mapped (reads_and hk ((reads_left (reads_lit _) hk).repeatFrom 0)) _
  have hf : Steps.Reads fragment := reads_named (reads_txt ((reads_pchar.or (reads_coll (reads_among _))).repeatFrom 0)) _
  have hs : Steps.Reads scheme :=
    reads_mapped (reads_txt (reads_and (reads_elmPred _) ((((reads_elmPred _).or (reads_elmPred _)).or (reads_among _)).repeatFrom 0))) _
  exact reads_mapped (reads_and (reads_and (reads_and (reads_right hs.opt (reads_lit _)) (reads_hierPart std))
    (Reads.opt (reads_left (reads_lit _) hq))) (Reads.opt (reads_left (reads_lit _) hf))) _

/-- **C147**: an accepted URI of `n` bytes takes at least `n` steps. -/
theorem c147_least (std : Std) (t : Bytes) (u : Uri) (n : Nat) (h : OniComb.Uri.uri std ⟨t, 0⟩ = .success u n) :
    n ≤ (uri std).steps ⟨t, 0⟩ := by
  rw [← uri_run] at h
  exact reads_uri std _ _ _ h

/-- The number of bytes that a URI takes. -/
def taken (std : Std) (t : Bytes) : Option Nat :=
  match OniComb.Uri.uri std ⟨t, 0⟩ with
  | .success _ n => some n
  | _ => none

/-- 25 bytes, read in 92 steps. -/
example : (uri ⟨fun _ => none, fun _ => []⟩).steps ⟨bytes "http://u@h:80/b/c?d=e&f#g", 0⟩ = 92 ∧
    taken ⟨fun _ => none, fun _ => []⟩ (bytes "http://u@h:80/b/c?d=e&f#g") = some 25 := by decide +kernel

/-- A query of `k` parameters. -/
example (std : Std) (k : Nat) : (uri std).steps ⟨bytes "http://a/?" ++ (List.replicate k (bytes "b=c&")).flatten, 0⟩ ≤ 552 * k + 2880 := by
  refine Nat.le_trans (c147_linear std _) ?_
  have h1 : (bytes "http://a/?").length = 10 := by decide
  have h2 : (bytes "b=c&").length = 4 := by decide
  rw [List.length_append, h1, List.length_flatten]
  simp [h2]
  omega

end OniComb.Uri.Counting
