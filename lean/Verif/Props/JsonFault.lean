import Verif.Lemmas.Json.Fault
import Verif.Props.JsonPrint
/-
  C83: when printing reports an error, and what it has written by then.
-/
namespace Reflect.Json

/-- C83. Printing a value reports an error exactly if one of the strings of its document - string values, keys
of maps, names or aliases of members that are not left out, at any depth - cannot be written under the options. -/
theorem C83_error_iff (env : Env) (hn : env.Named) (hsh : env.Shaped) (T : TyId → Prop) (hT : env.Closed T)
    (hv : ∀ ty d, T ty → ¬ env.Has ty d .void) (cw : WCache) (hw : Printers env cw) (wo : WOpts) (ty : TyId) (ht : T ty)
    (v : JV) (hF : Numbers env v) (x : JTree) (hd : Doc env wo.compact ty v x) (hp : wo.pretty = true → x.depth ≤ 1024)
    (n : Nat) (w : Writer) (h : (print env n cw ty v (Writer.new wo)).1 = .ok w) :
    w.err ≠ none ↔ ∃ s ∈ x.strs, ¬ Writable wo s := by
  constructor
  · intro he
    refine Classical.byContradiction fun hne => he ?_
    have hs : Texts wo x.strs := by
      intro s hs
      refine (writable_iff wo s).mpr (Classical.byContradiction fun hh => hne ⟨s, hs, hh⟩)
    obtain ⟨n0, h0⟩ := doc_text hn hsh hT hv ht (printers_good hn hw) hd hs
    obtain ⟨body, g1, _⟩ := h0 (max n n0) (by omega) (Writer.new wo) rfl rfl (by simpa [Writer.new] using hp)
    have hdiv : (print env n cw ty v (Writer.new wo)).1 ≠ .error .diverge := by rw [h]; simp
    rw [(C45_any_depth env n (max n n0) (by omega)).1 cw ty v (Writer.new wo) hdiv, h] at g1
    injection g1 with g1
    rw [g1]; rfl
  · rintro ⟨s, hs, hns⟩ he
    obtain ⟨x', body, _, h2, h3⟩ := print_text hn hsh (printers_good hn hw) h he hF
    have : x' = x := doc_fun h2 hd
    subst this
    exact hns ((writable_iff wo s).mp (gram_strs h3 s hs))

/-- C83. A printed string: an error exactly if it cannot be written under the options. -/
theorem C83_string_iff (wo : WOpts) (s : Bytes) (w : Writer) (h : formatString (Writer.new wo) s = .ok w) :
    w.err ≠ none ↔ ¬ Writable wo s := by
  rw [← writable_iff]
  constructor
  · rintro he ⟨t, ht⟩
    rw [formatString_complete ht rfl rfl] at h
    injection h with h
    subst h
    exact he rfl
  · intro hs he
    obtain ⟨_, t, h3, _⟩ := formatString_sound h he
    exact hs ⟨t, h3⟩

/-- C83. With neither escapes nor validation nothing printed is ever reported. -/
theorem C83_unchecked (env : Env) (hn : env.Named) (hsh : env.Shaped) (T : TyId → Prop) (hT : env.Closed T)
    (hv : ∀ ty d, T ty → ¬ env.Has ty d .void) (cw : WCache) (hw : Printers env cw) (wo : WOpts)
    (ho : wo.escapeUnicode = false) (hvu : wo.validateUnicode = false) (ty : TyId) (ht : T ty)
    (v : JV) (hF : Numbers env v) (x : JTree) (hd : Doc env wo.compact ty v x) (hp : wo.pretty = true → x.depth ≤ 1024)
    (n : Nat) (w : Writer) (h : (print env n cw ty v (Writer.new wo)).1 = .ok w) : w.err = none := by
  refine Classical.byContradiction fun he => ?_
  obtain ⟨s, _, hs⟩ := (C83_error_iff env hn hsh T hT hv cw hw wo ty ht v hF x hd hp n w h).mp he
  refine hs ⟨fun h => ?_, fun _ h => ?_⟩
  · rw [ho] at h; cases h
  · rw [hvu] at h; cases h

/-- C83. `printArray` on a writer without error: if the result has one, a call-back left it.  It is the last
call-back made; if its element was not the last of the array nothing was written after it, and in particular the
bracket is not closed; if it was, only the closing layout and bracket. -/
theorem C83_array_stops {α : Type} (fn : α → Writer → Res Writer) (xs : List α) (w w' : Writer) (hw : w.err = none)
    (h : printArray fn xs w = .ok w') (he : w'.err ≠ none) :
    ∃ pre x post w1 w2, xs = pre ++ x :: post ∧ w1.err = none ∧ fn x w1 = .ok w2 ∧ w2.err = w'.err ∧
      (post ≠ [] → w' = w2) ∧ (post = [] → ∃ ws, Ws ws ∧ w'.out = w2.out ++ ws ++ [93]) := by
  unfold printArray at h
  cases h1 : openLayout (decide (xs.length > 1)) (w.push [91]) with
  | error e => simp only [h1] at h; cases h
  | ok w1 =>
    simp only [h1] at h
    rw [okb] at h
    cases h2 : printItems fn xs true w1 with
    | error e => rw [h2] at h; cases h
    | ok p =>
      obtain ⟨w2, b⟩ := p
      rw [h2, okb] at h
      obtain ⟨ws, e1, e2⟩ := openLayout_spec h1
      have hw1 : w1.err = none := by rw [e2]; exact hw
      cases b with
      | false =>
        simp only [Bool.false_eq_true, if_false] at h
        injection h with h; subst h
        obtain ⟨pre, x, post, w3, g1, g2, g3, g4⟩ := printItems_stop xs true w1 _ _ hw1 h2 he
        exact ⟨pre, x, post, w3, w2, g1, g2, g3, rfl, fun _ => rfl, fun hh => by simp [hh] at g4⟩
      | true =>
        simp only [if_true] at h
        cases h3 : closeLayout (decide (xs.length > 1)) w2 with
        | error e => rw [h3] at h; cases h
        | ok w3 =>
          rw [h3, okb] at h
          injection h with h
          obtain ⟨ws2, e3, e4⟩ := closeLayout_spec h3
          have hwe : w'.err = w2.err := by rw [← h, e4]; rfl
          rw [hwe] at he
          obtain ⟨pre, x, post, w4, g1, g2, g3, g4⟩ := printItems_stop xs true w1 _ _ hw1 h2 he
          refine ⟨pre, x, post, w4, w2, g1, g2, g3, hwe.symm, fun hh => absurd (g4.mp rfl) hh, fun _ => ⟨ws2, e3, ?_⟩⟩
          rw [← h, e4]; simp [Writer.push]

/-- C83. `printArray` makes no call-back on a writer with an error: what a call-back does with one does not
matter. -/
theorem C83_array_no_callback {α : Type} (f g : α → Writer → Res Writer) (hfg : ∀ x w, w.err = none → f x w = g x w)
    (xs : List α) (w : Writer) : printArray f xs w = printArray g xs w := by
  unfold printArray
  simp only [printItems_only_ok hfg]

/-- C83. `printObject` on a writer without error: if the result has one, the key or the call-back of some member
left it.  It is the last member written - its call-back is made even if its key was at fault -; if it was not the
last of the list nothing was written after it, otherwise only the closing layout and bracket. -/
theorem C83_object_stops (fn : Bytes → Writer → Res Writer) (skip : Bytes → Res Bool) (ks : List Bytes) (w w' : Writer)
    (hw : w.err = none) (h : printObject fn skip ks w = .ok w') (he : w'.err ≠ none) :
    ∃ pre k post w1 wk w2 ws, ks = pre ++ k :: post ∧ skip k = .ok false ∧ w1.err = none ∧ formatString w1 k = .ok wk ∧
      Ws ws ∧ fn k (wk.push ([58] ++ ws)) = .ok w2 ∧ w2.err = w'.err ∧
      (post ≠ [] → w' = w2) ∧ (post = [] → ∃ ws, Ws ws ∧ w'.out = w2.out ++ ws ++ [125]) := by
  unfold printObject at h
  cases h1 : openLayout (decide (ks.length > 1)) (w.push [123]) with
  | error e => simp only [h1] at h; cases h
  | ok w1 =>
    simp only [h1] at h
    rw [okb] at h
    cases h2 : printMembers fn skip ks true w1 with
    | error e => rw [h2] at h; cases h
    | ok p =>
      obtain ⟨w2, b⟩ := p
      rw [h2, okb] at h
      obtain ⟨ws, e1, e2⟩ := openLayout_spec h1
      have hw1 : w1.err = none := by rw [e2]; exact hw
      cases b with
      | false =>
        simp only [Bool.false_eq_true, if_false] at h
        injection h with h; subst h
        obtain ⟨pre, k, post, w3, wk, ws', g1, g2, g3, g4, g5, g6, g7⟩ := printMembers_stop ks true w1 _ _ hw1 h2 he
        exact ⟨pre, k, post, w3, wk, w2, ws', g1, g2, g3, g4, g5, g6, rfl, fun _ => rfl, fun hh => by simp [hh] at g7⟩
      | true =>
        simp only [if_true] at h
        cases h3 : closeLayout (decide (ks.length > 1)) w2 with
        | error e => rw [h3] at h; cases h
        | ok w3 =>
          rw [h3, okb] at h
          injection h with h
          obtain ⟨ws2, e3, e4⟩ := closeLayout_spec h3
          have hwe : w'.err = w2.err := by rw [← h, e4]; rfl
          rw [hwe] at he
          obtain ⟨pre, k, post, w4, wk, ws', g1, g2, g3, g4, g5, g6, g7⟩ := printMembers_stop ks true w1 _ _ hw1 h2 he
          refine ⟨pre, k, post, w4, wk, w2, ws', g1, g2, g3, g4, g5, g6, hwe.symm, fun hh => absurd (g7.mp rfl) hh,
            fun _ => ⟨ws2, e3, ?_⟩⟩
          rw [← h, e4]; simp [Writer.push]

namespace Ex

/-- what `C83_error_iff` asks of the types and of the value: a list of two strings, the first of which is a lone
continuation byte -/
example : env.Named ∧ env.Shaped ∧ env.Closed (· < 7) ∧ (∀ ty d, ty < 7 → ¬ env.Has ty d .void) ∧ Printers env [] ∧
    Numbers env (.list [.str [0x80], .str [97]]) ∧
    Doc env false 2 (.list [.str [0x80], .str [97]]) (.arr [.str [0x80], .str [97]]) ∧
    (JTree.arr [.str [0x80], .str [97]]).depth ≤ 1024 ∧ ¬ Writable WOpts.default [0x80] ∧ Writable WOpts.default [0xC1, 0x81] := by
  have hcl : env.closedB = true := by decide
  have he1 : env.Has 1 tStr .string := ⟨rfl, .string rfl⟩
  refine ⟨namedB_spec (by decide), closedB_shaped hcl, closedB_spec hcl, solidB_spec hcl (by decide) _, .fresh, ?_, ?_,
    by decide, ?_, ?_⟩
  · intro x hx; simp [JV.floats, JV.floatsL] at hx
  · exact .list 2 _ 1 _ _ has2 (.cons 1 _ _ _ _ (.str 1 _ _ he1 rfl) (.cons 1 _ _ _ _ (.str 1 _ _ he1 rfl) (.nil 1)))
  · rintro ⟨h, _⟩
    cases h rfl with
    | ascii c s hc _ => revert hc; decide
  · exact ⟨fun _ => .two _ _ _ (by decide) (by decide) .nil, fun h => by cases h⟩

/-- and the list is printed up to the byte at fault, the bracket open -/
example : (match printArray (fun s w => formatString w s) [[0x80], [97]] (Writer.new WOpts.default) with
      | .ok w => w.err ≠ none ∧ w.out.take 2 = [91, 34] ∧ 93 ∉ w.out
      | _ => False) := by
  obtain ⟨w, h1, h2⟩ := Res.run (x := printArray (fun s w => formatString w s) [[0x80], [97]] (Writer.new WOpts.default))
      (p := fun w => decide (w.err ≠ none ∧ w.out.take 2 = [91, 34] ∧ 93 ∉ w.out)) (by decide +kernel)
  rw [h1]
  simpa using h2

end Ex

end Reflect.Json
