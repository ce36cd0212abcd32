import Verif.Lemmas.HoconDoc
import Verif.Spec.HoconNested

/-! # Helper lemmas: lines that open objects which are never closed -/

namespace OniComb.Hocon
open OniComb OniComb.Hocon.Spec
open OniComb.Uri (Bytes byte bytes fromUtf8 parseUInt mapUnwrap text)

variable {S : Std} {cv : Parser UInt8 Value} {prop : Parser UInt8 (Bytes × Value)} [Good cv] [Good prop] {rest : Bytes}

/-- A brace at the end of a line, read as a string. -/
theorem eats_brace (hq : Quiet rest) : Eats (softSimple S) [byte '{', byte '\n'] (.str [byte '{']) rest := by
  have hq' : Quiet (byte '{' :: byte '\n' :: rest) := noHead_cons.2 (by decide)
  have hd : NoHead (fun b => Digit b ∨ b = byte '-') (byte '{' :: byte '\n' :: rest) := noHead_cons.2 (by decide)
  have hn : Eats string [byte '{'] [byte '{'] (byte '\n' :: rest) :=
    eats_unquoted hq' (by simp) (by decide) (by decide) (noHead_cons.2 (by decide))
  have hc := fail_consts (r := byte '{' :: byte '\n' :: rest) (noHead_cons.2 (by decide))
  have hs : Eats stringConfigValue [byte '{'] (.str [byte '{']) (byte '\n' :: rest) := by unfold stringConfigValue; exact hn.map _
  unfold softSimple
  have := eats_spaced' (t := [byte '{']) (b2 := [byte '\n']) (rest := rest) (v := Value.str [byte '{']) gap_line
    (p := or (or (or (or (or (attempt (map (seq (bytes "null")) fun _ => .null))
    (attempt (map (seq (bytes "true")) fun _ => .bool true)))
    (attempt (map (seq (bytes "false")) fun _ => .bool false)))
    (attempt (map (softDuration S) fun (d, u) => .dur d u))) (attempt (map (softNumber S) .num)))
    stringConfigValue) hq' hq
    (.or_right (.or (.or hc (fail_attempt_of ((fail_softDuration hq' hd).map _)))
      (fail_attempt_of ((fail_softNumber hq' hd).map _))) hs)
  exact this

/-- If there is no object, then the brace is a string. -/
theorem eats_cvBrace {c : Committed} (hq : Quiet rest) (ho : Fail (objectConfigValue prop) ([byte '{', byte '\n'] ++ rest) c) :
    Eats (softConfigValue S cv prop) ([byte '{', byte '\n']) (.str [byte '{']) rest := by
  unfold softConfigValue
  have hq' : Quiet ([byte '{', byte '\n'] ++ rest) := noHead_cons.2 (by decide)
  have := eats_spaced' (t := [byte '{', byte '\n']) (b2 := []) (rest := rest) (v := Value.str [byte '{'])
    (p := or (or (or (or (attempt (arrayConfigValue cv)) (attempt (objectConfigValue prop)))
    (attempt referenceConfigValue)) (attempt (softSimple S))) enumerationConfigValue) gap_nil hq' hq
    (.or_left (.or_right (.or (.or (fail_attempt_of (fail_array hq' (noHead_cons.2 (by decide)))) (fail_attempt_of ho))
      (fail_refValue hq' (noHead_cons.2 (by decide)))) (eats_brace hq).attempt))
  simpa using this

theorem Stuck.noHead {x : Bytes} (h : Stuck x) {P : UInt8 → Prop} (h1 : ¬ P (byte ']')) (h2 : ∀ b, SegByte b → ¬ P b) : NoHead P x := by
  cases h with
  | nil => exact noHead_nil
  | bracket y => exact noHead_cons.2 h1
  | word g hk hy =>
    obtain ⟨b, y', rfl, hb⟩ := pathText_head hk
    exact noHead_cons.2 (h2 b hb)

theorem Stuck.quiet {x : Bytes} (h : Stuck x) : Quiet x := by
  cases h with
  | nil => exact noHead_nil
  | bracket y => exact noHead_cons.2 (by decide)
  | word g hk hy => exact pathText_quiet hk

theorem Stuck.no {x : Bytes} (h : Stuck x) {c : UInt8} (h1 : c ≠ byte ']') (h2 : ¬ SegByte c) : NoHead (fun b => b = c) x :=
  h.noHead (fun e => h1 e.symm) fun b hb e => h2 (e ▸ hb)

theorem opens_cons (k : Bytes) (ks : List Bytes) (x : Bytes) :
    opens (k :: ks) ++ x = k ++ ([byte '=', byte '{', byte '\n'] ++ (opens ks ++ x)) := by simp [opens]

theorem opens_quiet {ks : List Bytes} {x : Bytes} (hk : ∀ k ∈ ks, PathText k) (hx : Stuck x) : Quiet (opens ks ++ x) := by
  cases ks with
  | nil => exact hx.quiet
  | cons k ks =>
    rw [opens_cons]
    exact pathText_quiet (hk k (by simp))

theorem fail_property_stuck {x : Bytes} (hx : Stuck x) : Fail (property cv prop) x .uncommitted := by
  cases hx with
  | nil => exact fail_property_end
  | bracket y =>
    unfold property key
    exact .andThen (fail_spaced' (noHead_cons.2 (by decide)) (.or (fail_path (noHead_cons.2 (by decide)))
      (fail_string (noHead_cons.2 (by decide)) (noHead_cons.2 (by decide)))))
  | @word k y g hk hy =>
    have hq : Quiet y := fun b y' h hb => (hy b y' h).1 ((by decide : ∀ b ∈ bytes " \t\r\n#/", b ∈ bytes " \t\r\n/#.=:{[") b hb)
    have hn : NoHead (fun b => b ∈ bytes "=:{[") y := fun b y' h hb =>
      (hy b y' h).1 ((by decide : ∀ b ∈ bytes "=:{[", b ∈ bytes " \t\r\n/#.=:{[") b hb)
    have hp : NoHead PathByte y := fun b y' h hb =>
      hb.elim (fun hb => (hy b y' h).2 ⟨by simp, fun c hc => by rw [List.mem_singleton.1 hc]; exact hb⟩)
        fun e => (hy b y' h).1 (by rw [e]; decide)
    have hb : Blanks (List.replicate g (byte ' ')) := fun b h => by rw [List.eq_of_mem_replicate h]; decide
    unfold property
    have hkey := eats_key (b1 := []) (rest := y) hk gap_nil hb hq hp
    have := hkey.andThen_fail (fail_afterKey (cv := cv) (prop := prop) hq hn)
    simpa using this

/-- The lines up to the end or to something that is no property, and then no closing brace. -/
theorem fail_unclosed {ks : List Bytes} {x : Bytes} (hk : ∀ k ∈ ks, PathText k) (hx : Stuck x) (h0 : Fail prop x .uncommitted)
    (hp : ∀ k ks1 ks2, ks = ks1 ++ k :: ks2 → Eats prop (k ++ [byte '=', byte '{', byte '\n']) (k, .str [byte '{']) (opens ks2 ++ x)) :
    Fail (objectConfigValue prop) ([byte '{', byte '\n'] ++ (opens ks ++ x)) .uncommitted := by
  have hcomma : ∀ r, Quiet r → NoHead (fun b => b = byte ',') r → Eats (opt (spaced (elm (byte ',')))) [] none r := fun r h1 h2 =>
    eats_opt.2 (.inr ⟨rfl, rfl, .uncommitted, fail_spaced' h1 (fail_elm.2 ⟨rfl, fun r' h => h2 _ _ h rfl⟩)⟩)
  have hmany : ∀ ks2 ks1, ks = ks1 ++ ks2 →
      SepMany prop (opt (spaced (elm (byte ',')))) (opens ks2) (ks2.map fun k => (k, .str [byte '{'])) x := by
    intro ks2
    induction ks2 with
    | nil => intro ks1 _; exact .nil _
    | cons k ks2 ih =>
      intro ks1 he
      have h1 := hp k ks1 ks2 he
      have h2 := ih (ks1 ++ [k]) (by simp [he])
      have hk' : ∀ k' ∈ k :: ks2, PathText k' := fun k' h => hk k' (by rw [he]; simp [List.mem_cons.1 h])
      have hq : Quiet (opens (k :: ks2) ++ x) := opens_quiet hk' hx
      have hn : NoHead (fun b => b = byte ',') (opens (k :: ks2) ++ x) := by
        rw [opens_cons]
        obtain ⟨b, y, rfl, hb⟩ := pathText_head (hk' k (by simp))
        exact noHead_cons.2 fun hm => by subst hm; exact absurd hb (by decide)
      have := SepMany.cons (p := prop) (q := opt (spaced (elm (byte ',')))) (s := []) (t := k ++ [byte '=', byte '{', byte '\n'])
        (t' := opens ks2) (rest := x) (b := none) (v := (k, Value.str [byte '{'])) (by simpa [opens] using hcomma _ hq hn) h1 h2
      simpa [opens] using this
  have hlist : Eats (many0Sep prop (opt (spaced (elm (byte ','))))) (opens ks) (ks.map fun k => (k, .str [byte '{'])) x := by
    refine eats_many0Sep.2 ?_
    cases ks with
    | nil => exact .inl ⟨rfl, rfl, _, h0⟩
    | cons k ks =>
      refine .inr (eats_many1Sep.2 ⟨k ++ [byte '=', byte '{', byte '\n'], opens ks, [], (k, .str [byte '{']),
        ks.map fun k => (k, .str [byte '{']), by simp [opens], rfl, ?_, ?_,
        .inr ⟨⟨none, hcomma _ hx.quiet (hx.no (by decide) (by decide))⟩, _, h0⟩⟩)
      · simpa using hp k [] ks rfl
      · simpa using hmany ks [k] rfl
  unfold objectConfigValue object
  refine .map _ (.map _ ?_)
  have hopen : Eats (spaced (elm (byte '{'))) [byte '{', byte '\n'] (byte '{') (opens ks ++ x) :=
    eats_spaced' (t := [byte '{']) (b2 := [byte '\n']) gap_line (noHead_cons.2 (by decide)) (opens_quiet hk hx) (eats_elm.2 ⟨rfl, rfl⟩)
  unfold surround
  have hb : NoHead (fun b => b = byte '}') x := hx.no (by decide) (by decide)
  have hclose : Fail (spaced (elm (byte '}'))) x .uncommitted :=
    fail_spaced' hx.quiet (fail_elm.2 ⟨rfl, fun r' h => hb _ _ h rfl⟩)
  exact hopen.skipLeft_fail (hlist.skipRight_fail hclose)

omit [Good cv] [Good prop] in
theorem eats_open {k : Bytes} (hk : PathText k) (h : Eats cv [byte '{', byte '\n'] (.str [byte '{']) rest) [Good cv] [Good prop] :
    Eats (property cv prop) (k ++ [byte '=', byte '{', byte '\n']) (k, .str [byte '{']) rest := eats_property hk h

omit [Good cv] [Good prop] in
/-- With enough unrollings a brace at the end of a line is read as a string if the object is not closed, and so the line is a
property. -/
theorem eats_opens (S : Std) {x : Bytes} (hx : Stuck x) : ∀ (n : Nat) (ks : List Bytes), 2 * ks.length + 2 ≤ n → (∀ k ∈ ks, PathText k) →
    Eats (softGrammar S n).1 [byte '{', byte '\n'] (.str [byte '{']) (opens ks ++ x) := by
  intro n
  induction n using Nat.strongRecOn with
  | _ n ih =>
    intro ks hn hk
    obtain ⟨m, rfl⟩ : ∃ m, n = m + 2 := ⟨n - 2, by omega⟩
    show Eats (softConfigValue S (lazy fun _ => (softGrammar S (m + 1)).1) (lazy fun _ => (softGrammar S (m + 1)).2)) _ _ _
    refine eats_cvBrace (opens_quiet hk hx) (fail_unclosed hk hx ?_ ?_)
    · exact fail_property_stuck (cv := lazy fun _ => (softGrammar S m).1) (prop := lazy fun _ => (softGrammar S m).2) hx
    · intro k ks1 ks2 he
      have hl : ks.length = ks1.length + (ks2.length + 1) := by rw [he]; simp
      exact eats_open (cv := lazy fun _ => (softGrammar S m).1) (prop := lazy fun _ => (softGrammar S m).2) (hk k (by rw [he]; simp))
        (ih m (by omega) ks2 (by omega) fun k' h => hk k' (by rw [he]; simp [h]))

omit [Good cv] [Good prop] in
theorem eats_openProp (S : Std) {x : Bytes} (hx : Stuck x) {n : Nat} {k : Bytes} {ks : List Bytes} (hn : 2 * ks.length + 3 ≤ n)
    (hk : ∀ k' ∈ k :: ks, PathText k') :
    Eats (softGrammar S n).2 (k ++ [byte '=', byte '{', byte '\n']) (k, .str [byte '{']) (opens ks ++ x) := by
  obtain ⟨m, rfl⟩ : ∃ m, n = m + 1 := ⟨n - 1, by omega⟩
  exact eats_open (cv := lazy fun _ => (softGrammar S m).1) (prop := lazy fun _ => (softGrammar S m).2) (hk k (by simp))
    (eats_opens S hx m ks (by omega) fun k' h => hk k' (by simp [h]))

end OniComb.Hocon
