import Verif.Spec.UriTicks
import Verif.Props.UriSteps
import Verif.Props.JsonTicks

/-!
# C147, by a clock

The number of steps that `Model/UriSteps` computes is what a clock shows that is advanced by the parsers without parts
while the combinators of `Model/CacheGrammar` run.
-/

namespace OniComb.Uri.Ticking
open OniComb OniComb.Uri OniComb.Stateful
open OniComb.Peg
open OniComb.Json.Ticking (clocked_skipLeft clocked_map clocked_repeatSep)

section
variable {A B : Type} {m : C A} {c : Counting.C A}

theorem clocked_coll (h : Clocked m c) : Clocked (coll m) (Counting.coll c) := clocked_unary h _ fun _ _ => rfl
theorem clocked_named (h : Clocked m c) (l : String) : Clocked (named m l) (Counting.named c l) := clocked_unary h _ fun _ _ => rfl
theorem clocked_att (h : Clocked m c) : Clocked (att m) (Counting.att c) := clocked_unary h _ fun _ _ => rfl
theorem clocked_mapped (h : Clocked m c) (f : A → B) : Clocked (mapped m f) (Counting.mapped c f) := clocked_unary h _ fun _ _ => rfl
theorem clocked_tried (h : Clocked m c) (f : A → Option B) : Clocked (tried m f) (Counting.tried c f) := clocked_unary h _ fun _ _ => rfl
theorem clocked_unwrap (h : Clocked m c) (f : A → Option B) :
    Clocked (Stateful.unary (mapUnwrap · f) m) (.unary (mapUnwrap · f) c) := clocked_unary h _ fun _ _ => rfl
theorem clocked_txt (h : Clocked m c) : Clocked (txt m) (Counting.txt c) := clocked_tried (clocked_mapped (clocked_coll h) _) _
theorem clocked_lit (x : Char) : Clocked (lit x) (Counting.lit x) := clocked_prim _
theorem clocked_among (t : String) : Clocked (among t) (Counting.among t) := clocked_prim _
theorem clocked_from (h : Clocked m c) (n : Nat) : Clocked (times m (.from_ n)) (.repeatFrom n c) := clocked_repeat h n
theorem clocked_closed (h : Clocked m c) (n k : Nat) : Clocked (times m (.closed n k)) (.manyNM c n k) := clocked_repeatSep h .none _

end

theorem clocked_pct : Clocked pctEncoded Counting.pctEncoded :=
  clocked_named (clocked_coll (clocked_andThen (clocked_andThen (clocked_lit _) (clocked_prim _)) (clocked_prim _))) _

theorem clocked_unreserved : Clocked unreserved Counting.unreserved :=
  clocked_named (clocked_coll (clocked_or (clocked_or (clocked_prim _) (clocked_prim _)) (clocked_among _))) _

theorem clocked_subDelims : Clocked subDelims Counting.subDelims := clocked_coll (clocked_named (clocked_among _) _)

theorem clocked_pchar : Clocked pchar Counting.pchar :=
  clocked_named (clocked_coll (clocked_or (clocked_or (clocked_or clocked_unreserved clocked_pct) clocked_subDelims)
    (clocked_coll (clocked_among _)))) _

theorem clocked_regChar : Clocked regChar Counting.regChar :=
  clocked_or (clocked_or (clocked_att clocked_unreserved) (clocked_att clocked_pct)) clocked_subDelims

theorem clocked_codePoint : Clocked codePoint Counting.codePoint :=
  clocked_txt (clocked_from (clocked_or (clocked_named (clocked_coll (clocked_or (clocked_or (clocked_or clocked_unreserved clocked_pct)
    (clocked_coll (clocked_named (clocked_among _) _))) (clocked_coll (clocked_among _)))) _) (clocked_coll (clocked_among _))) 0)

theorem clocked_decOctet : Clocked decOctet Counting.decOctet :=
  clocked_named (clocked_tried (clocked_txt (clocked_or (clocked_or (clocked_or (clocked_or
    (clocked_att (clocked_coll (clocked_andThen (clocked_andThen (clocked_lit _) (clocked_lit _)) (clocked_prim _))))
    (clocked_att (clocked_coll (clocked_andThen (clocked_andThen (clocked_lit _) (clocked_prim _)) (clocked_prim _)))))
    (clocked_att (clocked_coll (clocked_andThen (clocked_andThen (clocked_lit _) (clocked_prim _)) (clocked_prim _)))))
    (clocked_att (clocked_coll (clocked_andThen (clocked_prim _) (clocked_prim _))))) (clocked_coll (clocked_prim _)))) _) _

theorem clocked_ipv4 : Clocked ipv4Address Counting.ipv4Address :=
  clocked_named (clocked_mapped (clocked_andThen (clocked_skipRight (clocked_andThen (clocked_skipRight (clocked_andThen
    (clocked_skipRight clocked_decOctet (clocked_lit _)) clocked_decOctet) (clocked_lit _)) clocked_decOctet) (clocked_lit _))
    clocked_decOctet) _) _

theorem clocked_h16 : Clocked h16 Counting.h16 :=
  clocked_named (clocked_mapped (clocked_tried (clocked_txt (clocked_closed (clocked_prim _) 1 4)) _) _) _

theorem clocked_ls32 : Clocked ls32 Counting.ls32 :=
  clocked_or (clocked_att (clocked_mapped (clocked_andThen (clocked_skipRight clocked_h16 (clocked_lit _)) clocked_h16) _))
    (clocked_mapped clocked_ipv4 _)

theorem clocked_colons (n : Nat) : Clocked (h16Colons n) (Counting.h16Colons n) :=
  clocked_closed (clocked_skipRight clocked_h16 (clocked_lit _)) n n

theorem clocked_p1 (n : Nat) : Clocked (ipv6P1 n) (Counting.ipv6P1 n) :=
  clocked_coll (clocked_opt (clocked_mapped (clocked_andThen clocked_h16 (clocked_closed (clocked_skipLeft (clocked_lit _) clocked_h16) 0 n)) _))

theorem clocked_p2 (n k : Nat) : Clocked (ipv6P2 n k) (Counting.ipv6P2 n k) :=
  clocked_coll (clocked_andThen (clocked_andThen (clocked_p1 n) (clocked_seq _))
    (clocked_coll (clocked_andThen (clocked_closed (clocked_andThen clocked_h16 (clocked_lit _)) k k) clocked_ls32)))

theorem clocked_to (std : Std) {m : C Bytes} {c : Counting.C Bytes} (h : Clocked m c) : Clocked (toIpv6 std m) (Counting.toIpv6 std c) :=
  clocked_tried (clocked_tried (clocked_mapped h _) _) _

theorem clocked_ipv6 (std : Std) : Clocked (ipv6Address std) (Counting.ipv6Address std) :=
  clocked_named (clocked_or (clocked_or (clocked_or (clocked_or (clocked_or (clocked_or (clocked_or (clocked_or
    (clocked_att (clocked_unwrap (clocked_andThen (clocked_colons 6) clocked_ls32) _))
    (clocked_att (clocked_unwrap (clocked_andThen (clocked_skipLeft (clocked_seq _) (clocked_colons 5)) clocked_ls32) _)))
    (clocked_att (clocked_unwrap (clocked_andThen (clocked_andThen (clocked_skipRight (clocked_opt clocked_h16) (clocked_seq _))
      (clocked_colons 4)) clocked_ls32) _)))
    (clocked_att (clocked_to std (clocked_p2 1 3)))) (clocked_att (clocked_to std (clocked_p2 2 2))))
    (clocked_att (clocked_to std (clocked_p2 3 1))))
    (clocked_att (clocked_to std (clocked_coll (clocked_andThen (clocked_andThen (clocked_p1 4) (clocked_seq _)) clocked_ls32)))))
    (clocked_att (clocked_to std (clocked_coll (clocked_andThen (clocked_andThen (clocked_p1 5) (clocked_seq _)) clocked_h16)))))
    (clocked_to std (clocked_coll (clocked_andThen (clocked_p1 5) (clocked_seq _))))) _

theorem clocked_host (std : Std) : Clocked (host std) (Counting.host std) := by
  have hf : Clocked ipvFuture Counting.ipvFuture :=
    clocked_named (clocked_txt (clocked_andThen (clocked_andThen (clocked_andThen (clocked_lit _) (clocked_from (clocked_prim _) 1))
      (clocked_lit _)) (clocked_from (clocked_or (clocked_or clocked_unreserved clocked_subDelims) (clocked_coll (clocked_lit _))) 1))) _
  have hl : Clocked (ipLiteral std) (Counting.ipLiteral std) :=
    clocked_named (clocked_skipRight (clocked_skipLeft (clocked_lit _) (clocked_or (clocked_att (clocked_mapped (clocked_ipv6 std) _))
      (clocked_mapped hf _))) (clocked_lit _)) _
  exact clocked_named (clocked_or (clocked_or (clocked_att (clocked_mapped hl _)) (clocked_att (clocked_mapped clocked_ipv4 _)))
    (clocked_named (clocked_mapped (clocked_txt (clocked_from clocked_regChar 1)) _) _)) _

theorem clocked_authority (std : Std) : Clocked (authority std) (Counting.authority std) := by
  have hu : Clocked userInfo Counting.userInfo :=
    clocked_named (clocked_mapped (clocked_andThen (clocked_txt (clocked_from clocked_regChar 0))
      (clocked_opt (clocked_skipLeft (clocked_lit _) (clocked_txt (clocked_from clocked_regChar 1))))) _) _
  have hp : Clocked port Counting.port := clocked_named (clocked_tried (clocked_tried (clocked_from (clocked_prim _) 0) _) _) _
  exact clocked_mapped (clocked_andThen (clocked_andThen (clocked_opt (clocked_skipRight hu (clocked_lit _))) (clocked_host std))
    (clocked_opt (clocked_skipLeft (clocked_lit _) hp))) _

theorem clocked_hierPart (std : Std) : Clocked (hierPart std) (Counting.hierPart std) := by
  have hs : Clocked (Stateful.andThen (lit '/') segment) (.andThen (Counting.lit '/') Counting.segment) :=
    clocked_andThen (clocked_lit _) (clocked_named (clocked_coll (clocked_from clocked_pchar 0)) _)
  have ha : ∀ n, Clocked (pathAbempty n) (Counting.pathAbempty n) := fun n =>
    clocked_named (clocked_mapped (clocked_from (clocked_txt hs) n) _) _
  have hr : Clocked pathRootless Counting.pathRootless :=
    clocked_named (clocked_mapped (clocked_unwrap (clocked_mapped (clocked_andThen
      (clocked_named (clocked_coll (clocked_from clocked_pchar 1)) _) (clocked_from (clocked_coll hs) 0)) _) _) _) _
  exact clocked_opt (clocked_or (clocked_att (clocked_mapped (clocked_andThen (clocked_skipLeft (clocked_seq _) (clocked_authority std))
    (ha 0)) _)) (clocked_mapped (clocked_or (clocked_att (ha 1)) hr) _))

theorem clocked_uri (std : Std) : Clocked (uri std) (Counting.uri std) := by
  have hk : Clocked keyValues Counting.keyValues :=
    clocked_andThen clocked_codePoint (clocked_opt (clocked_skipLeft (clocked_lit _) clocked_codePoint))
  have hq : Clocked query Counting.query :=
    clocked_mapped (clocked_andThen hk (clocked_from (clocked_skipLeft (clocked_lit _) hk) 0)) _
  have hf : Clocked fragment Counting.fragment :=
    clocked_named (clocked_txt (clocked_from (clocked_or clocked_pchar (clocked_coll (clocked_among _))) 0)) _
  have hs : Clocked scheme Counting.scheme :=
    clocked_mapped (clocked_txt (clocked_andThen (clocked_prim _) (clocked_from (clocked_or (clocked_or (clocked_prim _) (clocked_prim _))
      (clocked_among _)) 0))) _
  exact clocked_mapped (clocked_andThen (clocked_andThen (clocked_andThen (clocked_skipRight (clocked_opt hs) (clocked_lit _))
    (clocked_hierPart std)) (clocked_opt (clocked_skipLeft (clocked_lit _) hq))) (clocked_opt (clocked_skipLeft (clocked_lit _) hf))) _

/-- **C147**: the only run of the parser with a clock gives its result, and takes a time proportional to the length of the text. -/
theorem c147_clock (std : Std) (t : Bytes) (σ : Nat) : ∃ σ', σ' ≤ σ + (138 * t.length + 1500) ∧
    ∀ r σ1, uri std ⟨t, 0⟩ σ r σ1 ↔ r = OniComb.Uri.uri std ⟨t, 0⟩ ∧ σ1 = σ' := by
  refine ⟨_, Nat.add_le_add_left (Counting.c147_linear std t) σ, fun r σ1 => ?_⟩
  rw [← Counting.uri_run]
  exact clocked_uri std _ _ _ _

/-- A path of `k` segments. -/
example (std : Std) (k σ : Nat) : ∃ r σ1, uri std ⟨bytes "a:" ++ (List.replicate k (bytes "/b")).flatten, 0⟩ σ r σ1 ∧
    σ1 ≤ σ + (276 * k + 1776) := by
  obtain ⟨σ', h1, h2⟩ := c147_clock std (bytes "a:" ++ (List.replicate k (bytes "/b")).flatten) σ
  refine ⟨_, σ', (h2 _ _).2 ⟨rfl, rfl⟩, Nat.le_trans h1 ?_⟩
  have h3 : (bytes "a:").length = 2 := by decide
  have h4 : (bytes "/b").length = 2 := by decide
  rw [List.length_append, h3, List.length_flatten]
  simp [h4]
  omega

end OniComb.Uri.Ticking
