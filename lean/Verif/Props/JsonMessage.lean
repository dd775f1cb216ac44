import Verif.Props.JsonRead
import Verif.Props.ErrorFormat
import Verif.Lemmas.Json.MessageOnly
import Verif.Lemmas.Json.Says
/-
  C95: the messages of the JSON reader.
-/
namespace Reflect.Json

variable {o : ROpts}

/-- a short message is kept as it is -/
theorem text_short (e : JError) (h : e.msg.text.length ≤ 1022) : e.text = .ok ((placed e.line e.pos e.msg.text).map some) := by
  unfold JError.text placed
  rw [C59_intact _ h]
  simp



/-- the messages about a text are short -/
theorem trouble_short {x m z : Bytes} (h : Trouble o x m z) : m.length ≤ 64 := by
  have two : ∀ (a b : Bytes) (c : Byte), a.length + b.length ≤ 63 → (a ++ [c] ++ b).length ≤ 64 := by
    intro a b c h; simp only [List.length_append, List.length_cons, List.length_nil]; omega
  cases h with
  | char c z _ _ _ => exact two _ _ _ (by decide)
  | string t v y m z _ hb =>
    cases hb with
    | escape c z _ _ => exact two _ _ _ (by decide)
    | escapeCut => decide
    | hex h c z _ _ _ => exact two _ _ _ (by decide)
    | hexCut h _ _ => decide
    | header c z _ _ =>
      rw [List.length_append]
      exact Nat.add_le_add (b := 62) (d := 2) (by decide) (Nat.le_refl 2)
    | _ => decide
  | _ => decide

/-- Read the tokens `ts`, up to `w ++ x`, where `w` are separators and `x` does not start with a token: the next call
records an error, whose text is the line, the column and the message; `z` is left. -/
theorem C95_lexical (s w x m z : Bytes) (ts : List Tok) (k j c c' : Nat)
    (hl : ReadsL o s ts (w ++ x) k) (hj : Breaks o w j) (hc : ReadsC o s ts (w ++ x) 0 c) (hc' : After o w c c')
    (hx : Trouble o x m z) :
    ∃ r0 t r' e, takeToks ts.length (Reader.open o s) = .ok (ts, r0) ∧ r0.nextToken = .ok (t, r') ∧
      r'.err = some e ∧ r'.rest = z ∧
      ∃ u n, x = u ++ z ∧ n ≤ 1 ∧ (r'.fail = false → n = 0) ∧
        e.text = .ok ((placed (1 + k + j) (1 + c' + u.length + n) m).map some) := by
  obtain ⟨r0, b, h1, h2, h3⟩ := takeToks_readsL ts s k _ [] hl (At.open o s).soft
  have hne : w ++ x ≠ [] := by
    cases hx <;> simp
  obtain ⟨m', hh, hm⟩ := trouble_halts (breaks_sep hj) hx (h2.at hne)
  obtain ⟨e, he, hem⟩ := hh.err
  have hn : r0.nextToken = .ok (lexToken r0) := by
    unfold Reader.nextToken
    rw [if_pos (by rw [h2.tok])]
    unfold Reader.checked
    rw [hh.ub]
    rfl
  have h4 := lexToken_line hj (trouble_noSep hx) h2
  have ht : ∃ ts', takeToks (ts.length + 1) (Reader.open o s) = .ok (ts', (lexToken r0).2) := by
    rw [takeToks_add, h1, okb, takeToks, hn]
    exact ⟨_, rfl⟩
  obtain ⟨ts', ht⟩ := ht
  have hline := (C49_line_exact o s w x ts k j hl hj (trouble_noSep hx) ts' _ ht).2 e he
  obtain ⟨⟨u, n, h5, h6, h7, h8⟩, hcol⟩ := C49_column_exact o s w x ts c c' hc hc' (trouble_noSep hx) ts' _ ht
  refine ⟨r0, (lexToken r0).1, (lexToken r0).2, e, h1, hn, he, hh.rest, u, n, by rw [← hh.rest]; exact h5, h7, h8, ?_⟩
  have hs := trouble_short hx
  rw [text_short e (by rw [hem, hm]; omega), hline, hcol e he, h6, hem, hm]

/-- There is no other: when the call after the tokens `ts` records an error, the text there is one of these. -/
theorem C95_lexical_only (s w x : Bytes) (ts : List Tok) (h : Reads o s ts (w ++ x)) (hw : Sep o w) (hx : NoSep o x)
    (r0 r' : Reader) (t : Token) (h0 : takeToks ts.length (Reader.open o s) = .ok (ts, r0)) (hn : r0.nextToken = .ok (t, r'))
    (he : r'.err ≠ none) : ∃ m z, Trouble o x m z := by
  obtain ⟨k, hk⟩ := reads_readsL h
  obtain ⟨r1, b, h1, h2, _⟩ := takeToks_readsL ts s k _ [] hk (At.open o s).soft
  rw [h1] at h0
  injection h0 with h0; injection h0 with _ h0; subst h0
  unfold Reader.nextToken at hn
  rw [if_pos (by rw [h2.tok])] at hn
  unfold Reader.checked at hn
  split at hn
  · cases hn
  · rename_i hub
    injection hn with hn
    have e : (lexToken r1).2 = r' := by rw [hn]
    exact trouble_only hw hx h2 (by rw [e]; exact he) (by simpa using hub)

/-- what is written of a token besides its type -/
def shown (t : Tok) : Option Bytes := match t.1.val with
  | .none => none
  | .bool b => some (if b then ascii "true" else ascii "false")
  | .buffer => t.2

/-- the next token, read and named -/
theorem expect_named (s y : Bytes) (ts : List Tok) (tk : Tok) (want : TokType) (k c : Nat)
    (hl : ReadsL o s (ts ++ [tk]) y k) (hc : ReadsC o s (ts ++ [tk]) y 0 c) (hw : tk.1.type ≠ want)
    (h0 : ∀ v, tk.2 = some v → (cstr (printToken tk.1.type (some v))).length ≤ 980) :
    ∃ r0 r' e n, takeToks ts.length (Reader.open o s) = .ok (ts, r0) ∧ r0.expectToken want = .ok (⟨.eos, .none⟩, r') ∧
      r'.err = some e ∧ r'.rest = y ∧ n ≤ 1 ∧ (r'.fail = false → n = 0) ∧
      e.text = .ok ((placed (1 + k) (1 + c + n) (ascii "unexpected token <" ++ cstr (printToken tk.1.type (shown tk)) ++
        ascii ">, expecting <" ++ want.print ++ ascii ">")).map some) := by
  obtain ⟨r1, b, h1, h2, h3⟩ := takeToks_readsL _ s k _ [] hl (At.open o s).soft
  obtain ⟨r2, b', n, h1', h2', h4, h5, h6⟩ := takeToks_readsC _ s 0 c 0 _ [] hc (At.open o s).soft rfl (by omega) (fun _ => rfl)
  rw [h1] at h1'
  injection h1' with h1'; injection h1' with _ h1'; subst h1'
  rw [List.length_append, List.length_singleton, takeToks_add] at h1
  cases hq : takeToks ts.length (Reader.open o s) with
  | error e => rw [hq] at h1; cases h1
  | ok q =>
    obtain ⟨ts', r0⟩ := q
    rw [hq, okb, takeToks] at h1
    cases hn : r0.nextToken with
    | error e => simp only [hn] at h1; cases h1
    | ok p =>
      obtain ⟨t, r3⟩ := p
      simp only [hn] at h1
      rw [okb, takeToks, okb, okb] at h1
      injection h1 with h1
      injection h1 with ha hb
      subst hb
      obtain ⟨rfl, hb⟩ := List.append_inj' ha (by simp)
      injection hb with hb _
      subst hb
      dsimp only at hw h0 h2 h3 h4 h5 h6
      have herr : r3.err = none := h2.err
      have hx : t.text r3 = shown (t, tokText t r3) := by
        unfold Token.text tokText shown
        cases t.val <;> rfl
      have hlen : (Msg.unexpectedToken t.type (t.text r3) want).text.length ≤ 1022 := by
        have e1 : (ascii "unexpected token <").length = 18 := by decide
        have e2 : (ascii ">, expecting <").length = 14 := by decide
        have e3 : (ascii ">").length = 1 := by decide
        have h7 := print_le6 want
        have h8 : (cstr (printToken t.type (t.text r3))).length ≤ 980 := by
          unfold Token.text
          cases hv : t.val with
          | none => exact Nat.le_trans (length_cstr_le _) (by show (printToken t.type none).length ≤ 980; generalize t.type = q; cases q <;> decide)
          | bool b => exact Nat.le_trans (length_cstr_le _) (by
            show (printToken t.type (some (if b then ascii "true" else ascii "false"))).length ≤ 980
            generalize t.type = q; cases q <;> cases b <;> decide)
          | buffer => exact h0 _ (by unfold tokText; rw [if_pos hv])
        unfold Msg.text
        simp only [List.length_append, e1, e2, e3]
        omega
      obtain ⟨r', h7, h8, h9, _⟩ := (C49_expect r0 r3 t want hn).2.1 hw (.inr (by omega))
      have hr' : r' = (r3.assertToken t want).2 := by
        unfold Reader.expectToken at h7
        rw [hn, okb] at h7
        have hm : r3.mayAssert t want = .ok () := by
          unfold Reader.mayAssert; rw [if_neg hw]; exact format_fits _ (by omega)
        rw [hm, okb] at h7
        injection h7 with h7
        injection h7 with _ h7
        exact h7.symm
      have hs : r'.rest = r3.rest ∧ r'.fail = r3.fail := by
        rw [hr']
        unfold Reader.assertToken
        rw [if_neg hw]
        unfold Reader.error
        rw [herr]
        exact ⟨rfl, rfl⟩
      refine ⟨r0, r', _, n, rfl, h7, h9 herr, by rw [hs.1]; exact h2.rest, h5, by rw [hs.2]; exact h6, ?_⟩
      rw [text_short _ hlen]
      dsimp only
      rw [h4, h3, ← hx]
      rfl

theorem cstr_id (s : Bytes) (h : 0 ∉ s) : cstr s = s := by
  induction s with
  | nil => rfl
  | cons c s ih =>
    unfold cstr at ih ⊢
    rw [List.takeWhile_cons_of_pos (by simpa using fun e => h (by simp [e])), ih (fun e => h (by simp [e]))]

theorem kind_print (t : TokType) : named.kind t = t.print := by cases t <;> rfl

theorem last_lexeme {s y : Bytes} {ts : List Tok} {tk : Tok} {k : Nat} (h : ReadsL o s (ts ++ [tk]) y k) :
    ∃ a, Lexeme o a tk.1 tk.2 := by
  induction ts generalizing s k with
  | nil => cases h with | cons w a s y t v _ j k h1 h2 h3 h4 => exact ⟨a, h2⟩
  | cons t ts ih => cases h with | cons w a s y t v _ j k h1 h2 h3 h4 => exact ih h4

theorem named_shown {a : Bytes} {tk : Tok} (h : Lexeme o a tk.1 tk.2) : printToken tk.1.type (shown tk) = named tk := by
  obtain ⟨t, v⟩ := tk
  unfold shown named printToken
  rw [kind_print]
  cases h <;> first | rfl | decide

/-- Ask for a token of another type than the next: the message names both. (`eos` is what is there when a token has no
such text; the text of a token may have 965 bytes, none of them zero.) -/
theorem C95_expect (s y : Bytes) (ts : List Tok) (tk : Tok) (want : TokType) (k c : Nat)
    (hl : ReadsL o s (ts ++ [tk]) y k) (hc : ReadsC o s (ts ++ [tk]) y 0 c) (hw : tk.1.type ≠ want)
    (h0 : ∀ v, tk.2 = some v → 0 ∉ v ∧ v.length ≤ 960) :
    ∃ r0 r' e n, takeToks ts.length (Reader.open o s) = .ok (ts, r0) ∧ r0.expectToken want = .ok (⟨.eos, .none⟩, r') ∧
      r'.err = some e ∧ r'.rest = y ∧ n ≤ 1 ∧ (r'.fail = false → n = 0) ∧
      e.text = .ok ((placed (1 + k) (1 + c + n)
        (ascii "unexpected token <" ++ named tk ++ ascii ">, expecting <" ++ named.kind want ++ ascii ">")).map some) := by
  obtain ⟨r0, r', e, n, h1, h2, h3, h4, h5, h6, h8⟩ := expect_named s y ts tk want k c hl hc hw (by
    intro v hv
    have := h0 v hv
    refine Nat.le_trans (length_cstr_le _) ?_
    have e1 : (ascii "<Token ").length = 7 := by decide
    have e2 : (ascii ">").length = 1 := by decide
    have e3 : (ascii ": ").length = 2 := by decide
    have h1 := print_le6 tk.1.type
    unfold printToken
    simp only [List.length_append, e1, e2, e3]
    omega)
  refine ⟨r0, r', e, n, h1, h2, h3, h4, h5, h6, ?_⟩
  have : cstr (printToken tk.1.type (shown tk)) = named tk := by
    obtain ⟨a, ha⟩ := last_lexeme hl
    rw [named_shown ha]
    apply cstr_id
    rw [← named_shown ha]
    unfold printToken
    intro hm
    simp only [List.mem_append] at hm
    rcases hm with ((hm | hm) | hm) | hm
    · revert hm; decide
    · revert hm; generalize tk.1.type = q; cases q <;> decide
    · cases hs : shown tk with
      | none => rw [hs] at hm; cases hm
      | some v =>
        rw [hs] at hm
        simp only [List.mem_append] at hm
        rcases hm with hm | hm
        · revert hm; decide
        · unfold shown at hs
          cases hv : tk.1.val with
          | none => rw [hv] at hs; cases hs
          | bool b => rw [hv] at hs; injection hs with hs; subst hs; revert hm; cases b <;> decide
          | buffer => rw [hv] at hs; exact (h0 v hs).1 hm
    · revert hm; decide
  rw [h8, this, kind_print]

/-- A zero byte in the string that is there instead ends its name. -/
theorem C95_expect_zero_byte (s y : Bytes) (ts : List Tok) (a b : Bytes) (want : TokType) (k c : Nat)
    (hl : ReadsL o s (ts ++ [Tok.str (a ++ 0 :: b)]) y k) (hc : ReadsC o s (ts ++ [Tok.str (a ++ 0 :: b)]) y 0 c)
    (hw : want ≠ .string) (h0 : 0 ∉ a) (hlen : a.length ≤ 960) :
    ∃ r0 r' e n, takeToks ts.length (Reader.open o s) = .ok (ts, r0) ∧ r0.expectToken want = .ok (⟨.eos, .none⟩, r') ∧
      r'.err = some e ∧ r'.rest = y ∧ n ≤ 1 ∧ (r'.fail = false → n = 0) ∧
      e.text = .ok ((placed (1 + k) (1 + c + n)
        (ascii "unexpected token <" ++ (ascii "<Token string: " ++ a) ++ ascii ">, expecting <" ++ named.kind want ++
          ascii ">")).map some) := by
  have hp : cstr (printToken .string (some (a ++ 0 :: b))) = ascii "<Token string: " ++ a := by
    have e : printToken .string (some (a ++ 0 :: b)) = (ascii "<Token string: " ++ a) ++ 0 :: (b ++ ascii ">") := by
      have : ascii "<Token string: " = ascii "<Token " ++ ascii "string" ++ ascii ": " := by decide
      rw [this]
      unfold printToken TokType.print
      simp
    rw [e]
    unfold cstr
    rw [List.takeWhile_append_of_pos, List.takeWhile_cons_of_neg (by simp), List.append_nil]
    intro x hx
    rw [List.mem_append] at hx
    rcases hx with hx | hx
    · revert x; decide
    · have : x ≠ 0 := by intro e; subst e; exact h0 hx
      simpa using this
  obtain ⟨r0, r', e, n, h1, h2, h3, h4, h5, h6, h8⟩ := expect_named s y ts (Tok.str (a ++ 0 :: b)) want k c hl hc
    (fun e => hw e.symm) (by
      intro v hv
      injection hv with hv
      subst hv
      show (cstr (printToken .string (some (a ++ 0 :: b)))).length ≤ 980
      rw [hp, List.length_append]
      have : (ascii "<Token string: ").length = 15 := by decide
      omega)
  refine ⟨r0, r', e, n, h1, h2, h3, h4, h5, h6, ?_⟩
  rw [h8, kind_print, show cstr (printToken (Tok.str (a ++ 0 :: b)).1.type (shown (Tok.str (a ++ 0 :: b)))) = _ from hp]

/-- Ask for a token where there are only separators left. -/
theorem C95_expect_end (s w : Bytes) (ts : List Tok) (want : TokType) (k j c c' : Nat)
    (hl : ReadsL o s ts w k) (hj : Breaks o w j) (hc : ReadsC o s ts w 0 c) (hc' : After o w c c') (hw : want ≠ .eos) :
    ∃ r0 r' e n, takeToks ts.length (Reader.open o s) = .ok (ts, r0) ∧ r0.expectToken want = .ok (⟨.eos, .none⟩, r') ∧
      r'.err = some e ∧ r'.rest = [] ∧ n ≤ 1 ∧
      e.text = .ok ((placed (1 + k + j) (1 + c' + n)
        (ascii "unexpected token <<Token eos>>, expecting <" ++ named.kind want ++ ascii ">")).map some) := by
  obtain ⟨r0, b, h1, h2, h3⟩ := takeToks_readsL ts s k _ [] hl (At.open o s).soft
  have hns : NoSep o [] := by
    intro a b e _
    rw [List.nil_eq, List.append_eq_nil_iff] at e
    exact e.1
  have ht0 := lex_trailing (⟨w, breaks_sep hj, .inl rfl⟩ : Trailing o w) h2
  have hn : r0.nextToken = .ok (⟨.eos, .none⟩, (lexToken r0).2) := by
    unfold Reader.nextToken
    rw [if_pos (by rw [h2.tok])]
    unfold Reader.checked
    rw [ht0.2.2, ← ht0.1]
    rfl
  have ht : ∃ ts', takeToks (ts.length + 1) (Reader.open o s) = .ok (ts', (lexToken r0).2) := by
    rw [takeToks_add, h1, okb, takeToks, hn]
    exact ⟨_, rfl⟩
  obtain ⟨ts', ht⟩ := ht
  have hline := (C49_line_exact o s w [] ts k j (by rw [List.append_nil]; exact hl) hj hns ts' _ ht).1
  obtain ⟨⟨u, n, h5, h6, h7, h8⟩, hcol⟩ := C49_column_exact o s w [] ts c c' (by rw [List.append_nil]; exact hc) hc' hns ts' _ ht
  rw [List.nil_eq, List.append_eq_nil_iff] at h5
  obtain ⟨h5, h9⟩ := h5
  subst h5
  have htext : (Msg.unexpectedToken .eos none want).text =
      ascii "unexpected token <<Token eos>>, expecting <" ++ named.kind want ++ ascii ">" := by
    cases want <;> decide
  have hlen : (Msg.unexpectedToken .eos none want).text.length ≤ 1022 := by cases want <;> decide
  obtain ⟨r', e1, e2, e3, _⟩ := (C49_expect r0 _ ⟨.eos, .none⟩ want hn).2.1 (fun e => hw e.symm) (.inr (by
    show (Msg.unexpectedToken .eos none want).text.length ≤ 1024
    omega))
  have hr' : r'.rest = (lexToken r0).2.rest := by
    unfold Reader.expectToken at e1
    rw [hn, okb] at e1
    obtain ⟨_, _, e1⟩ := bind_ok e1
    injection e1 with e1
    injection e1 with _ e1
    subst e1
    unfold Reader.assertToken
    rw [if_neg (fun e => hw e.symm)]
    unfold Reader.error
    split <;> rfl
  refine ⟨r0, r', _, n, h1, e1, e3 ht0.2.1, by rw [hr', h9], h7, ?_⟩
  have := text_short ⟨(lexToken r0).2.line, (lexToken r0).2.pos, .unexpectedToken .eos none want⟩ hlen
  rw [show (⟨.eos, .none⟩ : Token).text (lexToken r0).2 = none from rfl, this, hline, h6, htext]
  rfl

/-! ### parsing -/

/-- a parse function of a type that uses the reader by its calls only, with short messages of its own -/
def Calls (f : JV → Reader → Res (JV × Reader)) : Prop :=
  ∀ v r p, f v r = .ok p → ∃ l, runOps l r = .ok p.2 ∧ ∀ m, .error m ∈ l → m.text.length ≤ 64

theorem runOps_keeps {P : Reader → Prop} (hk : KeepsAll P) (he : ∀ r m, P r → m.text.length ≤ 64 → P (r.error m)) :
    ∀ (l : List ROp) (r r' : Reader), (∀ m, .error m ∈ l → m.text.length ≤ 64) → P r → runOps l r = .ok r' → P r' := by
  intro l
  induction l with
  | nil => intro r r' _ h e; injection e with e; subst e; exact h
  | cons op l ih =>
    intro r r' hl h e
    have hl' : ∀ m, .error m ∈ l → m.text.length ≤ 64 := fun m hm => hl m (List.mem_cons_of_mem _ hm)
    cases op with
    | peek =>
      rw [runOps] at e
      obtain ⟨p, h1, h2⟩ := bind_ok e
      exact ih _ _ hl' (hk.peek r h p h1) h2
    | next =>
      rw [runOps] at e
      obtain ⟨p, h1, h2⟩ := bind_ok e
      exact ih _ _ hl' (hk.next r h p h1) h2
    | expect t =>
      rw [runOps] at e
      obtain ⟨p, h1, h2⟩ := bind_ok e
      exact ih _ _ hl' (hk.expect h t p h1) h2
    | error m =>
      rw [runOps] at e
      exact ih _ _ hl' (he r m h (hl m (by simp))) e

theorem parse_keeps {P : Reader → Prop} (hk : KeepsAll P) (he : ∀ r m, P r → m.text.length ≤ 64 → P (r.error m))
    {env : Env} (hf : ∀ ty name f, env.parseFn ty name = some f → Calls f) {n : Nat} {c : PCache} {ty : TyId} {u v : JV}
    {r r' : Reader} (hr : P r) (h : (parse env n c ty u r).1 = .ok (v, r')) : P r' := by
  unfold parse at h
  simp only at h
  split at h
  · cases h
  · refine hk.value ?_ n ty u r hr (v, r') h
    intro ty name f v r hfn hr p hp
    obtain ⟨l, h1, h2⟩ := hf ty name f hfn v r p hp
    exact runOps_keeps hk he l r p.2 h2 hr h1

/-- Whatever is parsed, as whatever type: if there is an error afterwards, its text can be had, and it is the line, the
column and the message; unless the message is about a token of more than 960 bytes. -/
theorem C95_parse (env : Env) (hf : ∀ ty name f, env.parseFn ty name = some f → Calls f) (n : Nat) (c : PCache) (ty : TyId)
    (u v : JV) (o : ROpts) (s : Bytes) (r' : Reader) (e : JError)
    (h : (parse env n c ty u (Reader.open o s)).1 = .ok (v, r')) (he : r'.err = some e) :
    (∃ t, e.text = .ok t) ∧
    (e.text = .ok ((placed e.line e.pos e.msg.text).map some) ∨
      ∃ t a w, e.msg = .unexpectedToken t (some a) w ∧ 960 < a.length) := by
  have key : Talks r' := by
    refine parse_keeps talks_kept (fun r m hr hm => ?_) hf ?_ h
    · refine ⟨hr.1.error (.inl hm), ?_⟩
      unfold Reader.error; split <;> exact hr.2
    · exact ⟨fun e he => (by cases he), fun h => absurd rfl h⟩
  rcases key.1 e he with hs | ⟨hfit, t, a, w, hm, hl⟩
  · have := text_short e (by omega)
    exact ⟨⟨_, this⟩, .inl this⟩
  · refine ⟨?_, ?_⟩
    · obtain ⟨x, hx, _⟩ := formatted e.msg.text hfit
      unfold JError.text
      rw [hx]
      exact ⟨_, rfl⟩
    · by_cases ha : 960 < a.length
      · exact .inr ⟨t, a, w, hm, ha⟩
      · exact .inl (text_short e (by omega))

/-- Where a value of any type is wanted - an untyped one - and the next token starts none: the message says so. -/
theorem C95_untyped (env : Env) (hn : env.Named) (T : TyId → Prop) (hT : env.Closed T) (cc : PCache) (hp : Parsers env cc)
    (ty : TyId) (ht : T ty) (d : TyD) (ho : env.Has ty d .void) (u : JV) (s y : Bytes) (tk : Tok) (k c : Nat)
    (hl : ReadsL o s [tk] y k) (hc : ReadsC o s [tk] y 0 c)
    (hk : tk = Tok.comma ∨ tk = Tok.colon ∨ tk = Tok.rbrack ∨ tk = Tok.rbrace) :
    ∃ n0, ∀ n, n0 ≤ n → ∃ r' e j, (parse env n cc ty u (Reader.open o s)).1 = .ok (u, r') ∧ r'.err = some e ∧
      r'.rest = y ∧ j ≤ 1 ∧ (r'.fail = false → j = 0) ∧
      e.text = .ok ((placed (1 + k) (1 + c + j) (ascii "unknown expected token <" ++ named tk ++ ascii ">")).map some) := by
  obtain ⟨n0, c', g1, g2, g3⟩ := parse_ready hn hT ht (parsers_good hn hp)
  obtain ⟨st, k1, k2, _⟩ := good_get g1 ho g2
  refine ⟨n0 + 2, fun n hn' => ?_⟩
  rw [g3 n (by omega)]
  obtain ⟨n, rfl⟩ : ∃ k, n = k + 2 := ⟨n - 2, by omega⟩
  obtain ⟨r1, b, h1, h2, h3⟩ := takeToks_readsL _ s k _ [] hl (At.open o s).soft
  obtain ⟨r2, b', j, h1', h2', h4, h5, h6⟩ := takeToks_readsC _ s 0 c 0 _ [] hc (At.open o s).soft rfl (by omega) (fun _ => rfl)
  rw [h1] at h1'
  injection h1' with h1'; injection h1' with _ h1'; subst h1'
  have hpk : (Reader.open o s).peekToken = .ok (tk.1, { r1 with tok := tk.1 }) := by
    rw [List.length_singleton, takeToks] at h1
    obtain ⟨p, e1, e2⟩ := bind_ok h1
    rw [takeToks, okb] at e2
    injection e2 with e2
    injection e2 with e2 e3
    injection e2 with e2 _
    unfold Reader.nextToken at e1
    have h0 : (Reader.open o s).tok.type = .noToken := rfl
    rw [if_pos h0] at e1
    unfold Reader.peekToken
    rw [if_pos h0, e1, okb]
    dsimp only at e2 e3
    subst e2
    subst e3
    rfl
  have herr : r1.err = none := h2.err
  have hres : parseV env c' (n + 2) ty u (Reader.open o s) =
      .ok (u, ({ r1 with tok := tk.1 } : Reader).error (.unknownToken tk.1.type none)) := by
    unfold parseV
    simp only [k1, k2, Shape.pk]
    unfold parseUntyped
    rw [hpk, okb]
    rcases hk with rfl | rfl | rfl | rfl <;> rfl
  have htext : (Msg.unknownToken tk.1.type none).text = ascii "unknown expected token <" ++ named tk ++ ascii ">" := by
    rcases hk with rfl | rfl | rfl | rfl <;> decide
  have hlen : (Msg.unknownToken tk.1.type none).text.length ≤ 1022 := by
    generalize tk.1.type = q; cases q <;> decide
  have he : ({ r1 with tok := tk.1 } : Reader).error (.unknownToken tk.1.type none) =
      { r1 with tok := tk.1, err := some ⟨r1.line, r1.pos, .unknownToken tk.1.type none⟩ } := by
    unfold Reader.error; dsimp only; rw [herr]
  refine ⟨_, _, j, hres, by rw [he], by rw [he]; exact h2.rest, h5, by rw [he]; exact h6, ?_⟩
  rw [text_short _ hlen, htext]
  dsimp only
  rw [h4, h3]
  rfl

/-- A reader in error stays as it is: parsing anything leaves the error, and what has not been read. -/
theorem C49_parse_after_error (env : Env) (hf : ∀ ty name f, env.parseFn ty name = some f → Calls f) (n : Nat) (c : PCache)
    (ty : TyId) (u v : JV) (r r' : Reader) (e : JError) (he : r.err = some e)
    (h : (parse env n c ty u r).1 = .ok (v, r')) : r'.err = some e ∧ r'.rest = r.rest := by
  have hk : KeepsAll (fun x => x.err = some e ∧ x.rest = r.rest) := by
    have stays : ∀ (x : Reader) (m : Msg), x.err = some e ∧ x.rest = r.rest → x.error m = x :=
      fun x m hx => Reader.error_of_err hx.1 m
    constructor
    · intro x hx p hp
      have := ((nextToken_fine x).2 p hp).1.stop (by rw [hx.1]; simp)
      exact ⟨by rw [this.1, hx.1], by rw [this.2, hx.2]⟩
    · intro x hx p hp
      have := ((peekToken_fine x).2 p hp).1.stop (by rw [hx.1]; simp)
      exact ⟨by rw [this.1, hx.1], by rw [this.2, hx.2]⟩
    · intro x x' p t hx _ _
      unfold Reader.assertToken
      split
      · exact hx
      · rw [stays _ _ hx]; exact hx
    · intro x p hx hp _ _ _ _ _
      have := ((peekToken_fine x).2 p hp).1.stop (by rw [hx.1]; simp)
      have hx' : p.2.err = some e ∧ p.2.rest = r.rest := ⟨by rw [this.1, hx.1], by rw [this.2, hx.2]⟩
      rw [stays _ _ hx']; exact hx'
  exact parse_keeps (P := fun x => x.err = some e ∧ x.rest = r.rest) hk
    (fun x m hx _ => by rw [Reader.error_of_err hx.1]; exact hx) hf ⟨he, rfl⟩ h

/-- non-vacuity -/
example : Calls (fun v r => .ok (v, r.error .utf8Encoding)) := by
  intro v r p h
  injection h with h; subst h
  exact ⟨[.error .utf8Encoding], rfl, fun m hm => by
    simp at hm; subst hm; decide⟩

/-! ### which texts are undefined for their long tokens -/

theorem strBody_shrinks {t v : Bytes} (h : StrBody o t v) : v.length ≤ t.length := by
  have hu : ∀ n, (utf8 n).length ≤ 4 := by
    intro n; unfold utf8; repeat' split
    all_goals simp
  induction h with
  | nil => exact Nat.le_refl _
  | plain c t v _ _ _ _ _ ih => simpa using ih
  | utf8 n t v _ _ _ _ ih => simpa using ih
  | escape c e t v _ _ ih => simp only [List.length_cons]; omega
  | unicode a b c d i j k l t v _ _ _ _ _ _ ih =>
    have := hu (4096 * i + 256 * j + 16 * k + l)
    simp only [List.length_cons, List.length_append]; omega
  | rawUnicode a b c d i j k l t v _ _ _ _ _ _ ih => simp only [List.length_cons]; omega

theorem lexeme_shrinks {a x : Bytes} {t : Token} (h : Lexeme o a t (some x)) : x.length ≤ a.length := by
  cases h with
  | string t v hb =>
    have := strBody_shrinks hb
    simp only [List.length_append, List.length_cons, List.length_nil]; omega
  | int s _ => exact Nat.le_refl _
  | float s _ => exact Nat.le_refl _

theorem reads_rest_length {s y : Bytes} {ts : List Tok} (h : Reads o s ts y) : y.length ≤ s.length := by
  induction h with
  | nil y => exact Nat.le_refl _
  | cons w a s y t v ts _ _ _ _ ih => simp only [List.length_append]; omega

theorem reads_text_length {s y x : Bytes} {ts : List Tok} {t : Token} (h : Reads o s (ts ++ [(t, some x)]) y) :
    x.length ≤ s.length := by
  induction ts generalizing s with
  | nil =>
    cases h with
    | cons w a s y t v ts _ ha _ _ =>
      have := lexeme_shrinks ha
      simp only [List.length_append]; omega
  | cons p ts ih =>
    cases h with
    | cons w a s y t v ts _ ha _ h =>
      have := ih h
      simp only [List.length_append]; omega

/-- No text of up to 969 bytes has one. -/
theorem C64_short_texts (s : Bytes) (h : s.length ≤ 969) : ¬ LongToken o s := by
  rintro (⟨ts, t, x, y, h1, h2⟩ | ⟨ts, w, z, h1, _, _, h2⟩)
  · have := reads_text_length h1; omega
  · have := reads_rest_length h1
    simp only [List.length_append, List.length_cons] at this
    omega

/-- A string of more than 972 bytes where an integer is wanted is undefined: the message does not fit. -/
theorem C64_long_token_undefined (env : Env) (hn : env.Named) (T : TyId → Prop) (hT : env.Closed T)
    (c : PCache) (hc : Parsers env c) (o : ROpts) (ty : TyId) (ht : T ty) (d : TyD) (ho : env.Has ty d .int)
    (u : JV) (v s y : Bytes) (hs : Reads o s [Tok.str v] y) (hz : 0 ∉ v) (hl : 972 < v.length) :
    ∃ n0, ∀ n, n0 ≤ n → (parse env n c ty u (Reader.open o s)).1 = .error .ub := by
  obtain ⟨n0, c', g1, g2, g3⟩ := parse_ready hn hT ht (parsers_good hn hc)
  obtain ⟨st, k1, k2, _⟩ := good_get g1 ho g2
  refine ⟨n0 + 1, fun n hn' => ?_⟩
  rw [g3 n (by omega)]
  obtain ⟨n, rfl⟩ : ∃ k, n = k + 1 := ⟨n - 1, by omega⟩
  obtain ⟨r1, e1, ⟨s', ⟨b', f1⟩, _⟩, b1⟩ := (FedR.open hs).fed.next
  have hx : (⟨.string, .buffer⟩ : Token).text r1 = some v := by
    show some r1.buf = some v
    rw [b1 v rfl]
  have hp : cstr (printToken .string (some v)) = ascii "<Token string: " ++ v ++ ascii ">" := by
    have e : printToken .string (some v) = ascii "<Token string: " ++ v ++ ascii ">" := by
      have : ascii "<Token string: " = ascii "<Token " ++ ascii "string" ++ ascii ": " := by decide
      rw [this]
      unfold printToken TokType.print
      simp
    rw [e]
    apply cstr_id
    intro h
    simp only [List.mem_append] at h
    rcases h with (h | h) | h
    · revert h; decide
    · exact hz h
    · revert h; decide
  have hlong : 1024 < (Msg.unexpectedToken .string (some v) .int).text.length := by
    have e0 : (ascii "<Token string: ").length = 15 := by decide
    have e1 : (ascii "unexpected token <").length = 18 := by decide
    have e2 : (ascii ">, expecting <").length = 14 := by decide
    have e3 : (ascii ">").length = 1 := by decide
    have e4 : TokType.int.print.length = 3 := by decide
    show 1024 < (ascii "unexpected token <" ++ cstr (printToken .string (some v)) ++ ascii ">, expecting <" ++
      TokType.int.print ++ ascii ">").length
    rw [hp]
    simp only [List.length_append, e0, e1, e2, e3, e4]
    omega
  have := (C49_expect (Reader.open o s) r1 _ .int e1).2.2 (by simp) f1.err (by rw [hx]; exact hlong)
  unfold parseV
  simp only [k1, k2, Shape.pk]
  unfold parseInt
  rw [this]
  rfl

/-- non-vacuity: a text that is a string of 1000 letters -/
example : Reads ROpts.default ([] ++ ([34] ++ List.replicate 1000 97 ++ [34]) ++ []) [Tok.str (List.replicate 1000 97)] [] ∧
    (0 : Byte) ∉ List.replicate 1000 97 ∧ 972 < (List.replicate 1000 (97 : Byte)).length := by
  refine ⟨Reads.cons [] _ [] _ _ _ _ Sep.nil (Lexeme.string _ _ ?_) (by intro h; rcases h with h | h <;> cases h) (Reads.nil _), ?_, ?_⟩
  · generalize 1000 = n
    induction n with
    | zero => exact StrBody.nil
    | succ n ih => exact StrBody.plain 97 _ _ (by decide) (by decide) (by decide) (.inl (by decide)) ih
  · intro h; have := List.eq_of_mem_replicate h; revert this; decide
  · rw [List.length_replicate]; decide

/-- non-vacuity of the theorems on messages: `[1,⏎ x` -/
example : ∃ s w x m z ts k j c c', ReadsL ROpts.default s ts (w ++ x) k ∧ Breaks ROpts.default w j ∧
    ReadsC ROpts.default s ts (w ++ x) 0 c ∧ After ROpts.default w c c' ∧ Trouble ROpts.default x m z ∧ ts ≠ [] ∧ j = 1 ∧ c' = 1 := by
  refine ⟨[91] ++ ([10] ++ ([32] ++ [120])), [10] ++ [32], [120], _, [], [Tok.lbrack], 0 + 0, 1, 1, 1,
    ReadsL.cons [] [91] _ _ _ _ [] 0 0 Breaks.nil Lexeme.arrayStart (by intro h; rcases h with h | h <;> cases h) (ReadsL.nil _),
    Breaks.newline [32] 0 (Breaks.ws 32 [] 0 (by decide) (by decide) Breaks.nil),
    ReadsC.cons [] [91] _ _ _ _ [] 0 0 1 (After.nil 0) Lexeme.arrayStart (by intro h; rcases h with h | h <;> cases h) (ReadsC.nil _ _),
    After.newline [32] 1 1 (After.ws 32 [] 0 1 (by decide) (by decide) (After.nil _)), Trouble.char 120 [] (by decide) (by decide) (by decide), by simp, rfl, rfl⟩

end Reflect.Json
