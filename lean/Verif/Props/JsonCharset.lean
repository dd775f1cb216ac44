import Verif.Lemmas.Json.Charset
import Verif.Props.JsonPrint
/-
  C82: the characters of printed JSON.
-/
namespace Reflect.Json

/-- C82. With `EscapeUnicode` everything printed without a reported error is ASCII, whatever the bytes of the
strings printed and the other options. -/
theorem C82_ascii (env : Env) (hn : env.Named) (hsh : env.Shaped) (cw : WCache) (hw : Printers env cw) (wo : WOpts)
    (ho : wo.escapeUnicode = true) (ty : TyId) (v : JV) (hF : Numbers env v) (n : Nat) (w : Writer)
    (h : (print env n cw ty v (Writer.new wo)).1 = .ok w) (he : w.err = none) : ∀ c ∈ w.out, c.toNat < 0x80 := by
  obtain ⟨x, body, h1, h2, h3⟩ := print_text hn hsh (printers_good hn hw) h he hF
  have hout : w.out = body := by rw [h1]; simp [Writer.push]
  rw [hout]
  exact ascii_charset.gram (fun m t ht => ftext_ascii ho ht) h3

/-- C82. In particular with the default options. -/
theorem C82_default (env : Env) (hn : env.Named) (hsh : env.Shaped) (cw : WCache) (hw : Printers env cw)
    (ty : TyId) (v : JV) (hF : Numbers env v) (n : Nat) (w : Writer)
    (h : (print env n cw ty v (Writer.new WOpts.default)).1 = .ok w) (he : w.err = none) :
    ∀ c ∈ w.out, c.toNat < 0x80 :=
  C82_ascii env hn hsh cw hw _ rfl ty v hF n w h he

/-- C82. With `ValidateUnicode` everything printed without a reported error is UTF-8 (code points of up to 21
bits). -/
theorem C82_utf8 (env : Env) (hn : env.Named) (hsh : env.Shaped) (cw : WCache) (hw : Printers env cw) (wo : WOpts)
    (ho : wo.validateUnicode = true) (ty : TyId) (v : JV) (hF : Numbers env v) (n : Nat) (w : Writer)
    (h : (print env n cw ty v (Writer.new wo)).1 = .ok w) (he : w.err = none) : Text 0x200000 w.out := by
  obtain ⟨x, body, h1, h2, h3⟩ := print_text hn hsh (printers_good hn hw) h he hF
  have hout : w.out = body := by rw [h1]; simp [Writer.push]
  rw [hout]
  exact (text_charset 0x200000 (by decide)).gram (fun m t ht => ftext_utf8 ho ht) h3

/-- C82. Neither holds without the two options: a string with any byte from 0x80 on is printed as it is,
without a reported error. -/
theorem C82_unchecked (wo : WOpts) (h1 : wo.escapeUnicode = false) (h2 : wo.validateUnicode = false) (c : Byte)
    (hc : 0x80 ≤ c.toNat) :
    ∃ w, formatString (Writer.new wo) [c] = .ok w ∧ w.err = none ∧ w.out = [34, c, 34] := by
  have hf : FText wo [c] [c] := FText.raw c [] [] hc h1 h2 FText.nil
  exact ⟨_, formatString_complete hf rfl rfl, rfl, rfl⟩

/-- C82. With validation and no escapes, every code point from 0x80 on is printed as it is. -/
theorem C82_copied (wo : WOpts) (h1 : wo.escapeUnicode = false) (h2 : wo.validateUnicode = true) (n : Nat)
    (hn : 0x80 ≤ n) (hm : n < 0x200000) :
    ∃ w, formatString (Writer.new wo) (utf8 n) = .ok w ∧ w.err = none ∧ w.out = 34 :: (utf8 n ++ [34]) := by
  have hf : FText wo (utf8 n ++ []) (utf8 n ++ []) := FText.copy n [] [] h1 h2 hn hm FText.nil
  simp only [List.append_nil] at hf
  exact ⟨_, formatString_complete hf rfl rfl, rfl, by simp⟩

/-- The hypotheses hold of a list of nodes with the string `é"`, which is printed. -/
example : Ex.env.Named ∧ Ex.env.Shaped ∧ Printers Ex.env [] ∧ Numbers Ex.env (Ex.leaf 7 .null) ∧
    (match (print Ex.env 5 [] 1 (.str [0xC3, 0xA9, 34]) (Writer.new WOpts.default)).1 with
      | .ok w => w.err = none ∧ w.out = [34, 92, 117, 48, 48, 101, 57, 92, 34, 34]
      | _ => False) := by
  have hcl : Ex.env.closedB = true := by decide
  refine ⟨namedB_spec (by decide), closedB_shaped hcl, .fresh, ?_, ?_⟩
  · intro x hx
    simp only [Ex.leaf, JV.floats, JV.floatsL, JV.floatsM, List.append_nil, List.nil_append, List.mem_cons,
      List.not_mem_nil, or_false] at hx
    subst hx
    exact .inr Ex.gram15
  · obtain ⟨w, h1, h2⟩ := Res.run (x := formatString (Writer.new WOpts.default) [0xC3, 0xA9, 34])
      (p := fun w => decide (w.err = none ∧ w.out = [34, 92, 117, 48, 48, 101, 57, 92, 34, 34])) (by decide +kernel)
    have : (print Ex.env 5 [] 1 (.str [0xC3, 0xA9, 34]) (Writer.new WOpts.default)).1 =
        formatString (Writer.new WOpts.default) [0xC3, 0xA9, 34] := by
      simp [print, getPrinter, Ex.env, Ex.tStr, printV, TyD.printerKind, Assoc.set, Assoc.get, Env.exact]
    rw [this, h1]
    simpa using h2

end Reflect.Json
