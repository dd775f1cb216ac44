import Verif.Lemmas.Json.UbText
import Verif.Lemmas.Json.Ends
import Verif.Lemmas.Json.Mem
/- Parsing runs into undefined behaviour only on broken strings and where a value is missing. -/
namespace Reflect.Json

variable {o : ROpts} {s0 : Bytes} {r : Reader} {env : Env} {c : PCache} {T : TyId → Prop} {Q Q' : List Tok → Prop}

/-- `Safe x P`: `x` is not undefined, and its value, if it has one, satisfies `P`. -/
def Safe {α : Type} (x : Res α) (P : α → Prop) : Prop := x ≠ .error .ub ∧ ∀ a, x = .ok a → P a

theorem Safe.ok {α : Type} {a : α} {P : α → Prop} (h : P a) : Safe (.ok a) P :=
  ⟨by simp, fun b hb => by injection hb with hb; exact hb ▸ h⟩

theorem Safe.err {α : Type} {e : Fault} {P : α → Prop} (h : e ≠ .ub) : Safe (.error e : Res α) P :=
  ⟨by simpa using h, fun b hb => by cases hb⟩

theorem Safe.bind {α β : Type} {x : Res α} {f : α → Res β} {P : α → Prop} {Q : β → Prop}
    (h : Safe x P) (h2 : ∀ a, P a → Safe (f a) Q) : Safe (x >>= f) Q := by
  cases x with
  | ok a => exact h2 a (h.2 a rfl)
  | error e => exact ⟨fun hx => h.1 (by injection hx with hx; rw [hx]), fun b hb => by cases hb⟩

theorem Safe.imp {α : Type} {x : Res α} {P Q : α → Prop} (h : Safe x P) (h2 : ∀ a, P a → Q a) : Safe x Q :=
  ⟨h.1, fun a ha => h2 a (h.2 a ha)⟩

/-- what is undefined whatever the tokens mean -/
def Unsafe (o : ROpts) (s : Bytes) : Prop := BrokenString o s ∨ LongToken o s

/-- the text of the token looked ahead at can be written about -/
def Short (r : Reader) : Prop := r.tok.type ≠ .noToken → ∀ x, r.tok.text r = some x → x.length ≤ 969

/-- If the reader is usable, the tokens read so far are some `ts` with `Q ts`. -/
def Hist (o : ROpts) (s0 : Bytes) (Q : List Tok → Prop) (r : Reader) : Prop :=
  (r.ub = false ∧ Short r) ∧ (r.ok = true → ∃ ts y, Reads o s0 ts y ∧ Pos o y r ∧ Q ts)

abbrev Inv (o : ROpts) (s0 : Bytes) (r : Reader) : Prop := Hist o s0 (fun _ => True) r

/-- a value is due -/
abbrev Due (o : ROpts) (s0 : Bytes) (r : Reader) : Prop :=
  Hist o s0 (fun ts => ∃ ts' t, ts = ts' ++ [t] ∧
    (t = Tok.colon ∨ t = Tok.comma ∨ (t = Tok.lbrack ∧ r.tok.type ≠ .noToken ∧ r.tok.type ≠ .arrayEnd))) r

theorem Hist.imp (h : Hist o s0 Q r) (hq : ∀ ts, Q ts → Q' ts) : Hist o s0 Q' r :=
  ⟨h.1, fun hk => by obtain ⟨ts, y, h1, h2, h3⟩ := h.2 hk; exact ⟨ts, y, h1, h2, hq ts h3⟩⟩

theorem Hist.inv (h : Hist o s0 Q r) : Inv o s0 r := h.imp fun _ _ => trivial

theorem text_error (t : Token) (r : Reader) (m : Msg) : t.text (r.error m) = t.text r := by
  unfold Token.text Reader.error
  split
  · rfl
  · rfl
  · split <;> rfl

theorem short_error (h : Short r) (m : Msg) : Short (r.error m) := by
  unfold Short
  rw [text_error]
  have : (r.error m).tok = r.tok := by unfold Reader.error; split <;> rfl
  rw [this]
  exact h

theorem Hist.error (h : Hist o s0 Q r) (m : Msg) : Hist o s0 Q' (r.error m) :=
  ⟨⟨by rw [error_ub]; exact h.1.1, short_error h.1.2 m⟩, fun hk => by rw [Reader.error_not_ok] at hk; cases hk⟩

theorem Inv.open (o : ROpts) (s : Bytes) : Inv o s (Reader.open o s) :=
  ⟨⟨rfl, fun h => absurd rfl h⟩, fun _ => ⟨[], s, .nil s, Pos.open o s, trivial⟩⟩

theorem lexToken_not_ok (h : r.ok = false) : lexToken r = (⟨.eos, .none⟩, r) := by
  unfold lexToken; rw [if_neg (by simp [h])]

theorem pstep_ok {r r' : Reader} (h : PStep r r') (hk : r'.ok = true) : r.ok = true := by
  have he := pstep_err h (Reader.ok_err hk)
  have hf : r.fail = false := by
    cases hf : r.fail with
    | false => rfl
    | true =>
      have := (h.fail hf).1
      simp only at this
      unfold Reader.ok at hk
      rw [this] at hk
      simp at hk
  simp [Reader.ok, he, hf]

/-- lexing from a state with a history -/
theorem hist_lex (hb : ¬ Unsafe o s0) (h : Hist o s0 Q r) (ht : r.tok.type = .noToken) : (lexToken r).2.ub = false := by
  cases hk : r.ok with
  | false => rw [lexToken_not_ok hk]; exact h.1.1
  | true =>
    obtain ⟨ts, y, h1, h2, _⟩ := h.2 hk
    have hr : Ready o y r := by
      rcases h2 with h2 | ⟨t, v, w, a, s', _, _, _, _, h5, _⟩ | ⟨_, _, h3, _⟩
      · exact h2
      · exact absurd (by rw [← h5.tok]; exact ht) h5.type
      · rw [hk] at h3; cases h3
    obtain ⟨b, hs⟩ := hr
    cases hu : (lexToken r).2.ub with
    | false => rfl
    | true =>
      exfalso
      obtain ⟨w, x, e, hw, hv, t, v, z, e2, hB, hz⟩ := lex_ub_sound hs hu
      refine hb (Or.inl ⟨hv, ts, w, t, v, z, ?_, hw, hB, hz⟩)
      rw [← e2, ← e]; exact h1

@[simp] theorem pop_err (r : Reader) : r.pop.2.err = r.err := by
  unfold Reader.pop
  repeat' split
  all_goals rfl
@[simp] theorem peek_err' (r : Reader) : r.peek.2.err = r.err := by
  unfold Reader.peek
  repeat' split
  all_goals rfl

theorem readDigits_err (r : Reader) : (readDigits r).err = r.err := by
  fun_induction readDigits r <;> simp_all [Reader.save]

theorem readChar_err (r : Reader) (c : Byte) : (readChar r c).2.err = r.err := by
  unfold readChar; repeat' split
  all_goals simp [Reader.save]

theorem readChars_err (r : Reader) (c d : Byte) : (readChars r c d).2.err = r.err := by
  unfold readChars; repeat' split
  all_goals simp [Reader.save]

theorem readNumber_err (r : Reader) (c : Byte) : (readNumber r c).2.err = r.err := by
  unfold readNumber
  simp only
  repeat' split
  all_goals simp [readDigits_err, readChar_err, readChars_err, Reader.resetBuffer, Reader.save]

/-- the tokens read from a state with a history can be written about -/
theorem hist_short (hb : ¬ Unsafe o s0) (h : Hist o s0 Q r) (ht : r.tok.type = .noToken) (x : Bytes)
    (hx : (lexToken r).1.text (lexToken r).2 = some x) : x.length ≤ 969 := by
  cases hk : r.ok with
  | false => rw [lexToken_not_ok hk] at hx; cases hx
  | true =>
    obtain ⟨ts, y, h1, h2, _⟩ := h.2 hk
    have hr : Ready o y r := by
      rcases h2 with h2 | ⟨t, v, w, a, s', _, _, _, _, h5, _⟩ | ⟨_, _, h3, _⟩
      · exact h2
      · exact absurd (by rw [← h5.tok]; exact ht) h5.type
      · rw [hk] at h3; cases h3
    obtain ⟨b, hs⟩ := hr
    by_cases hy : y = []
    · subst hy
      have := lex_trailing (o := o) ⟨[], Sep.nil, Or.inl rfl⟩ hs
      rw [this.1] at hx; cases hx
    have hat := hs.at hy
    by_cases he : (lexToken r).2.err = none
    · rcases lex_sound hat he with ⟨e, _⟩ | ⟨w, a, v, s', e1, e2, e3, e4, e5⟩
      · rw [e] at hx; cases hx
      · have hr1 : Reads o y [((lexToken r).1, v)] s' := by rw [e1]; exact reads_single e2 e3 e5
        have hbuf := e4.buf
        have hlong : ∀ z, v = some z → z.length ≤ 969 := by
          intro z hz
          apply Nat.le_of_not_lt
          intro hlt
          exact hb (Or.inr (Or.inl ⟨ts, (lexToken r).1, z, s', reads_append h1 (hz ▸ hr1), hlt⟩))
        generalize (lexToken r).1 = t at *
        generalize (lexToken r).2 = r2 at *
        cases e3 with
        | string t v _ => exact (Option.some.inj hx ▸ hbuf ▸ hlong v rfl)
        | int s _ => exact (Option.some.inj hx ▸ hbuf ▸ hlong _ rfl)
        | float s _ => exact (Option.some.inj hx ▸ hbuf ▸ hlong _ rfl)
        | true => cases hx; decide
        | false => cases hx; decide
        | _ => cases hx
    · unfold lexToken at hx he
      rw [if_pos hk] at hx he
      simp only at hx he
      by_cases hk2 : (nextChar r).2.ok = true
      · rw [if_pos hk2] at hx he
        rcases nextChar_sound y.length (Nat.le_refl _) hat with ⟨w, s', es, hw, hws, hok, hat'⟩ | ⟨k1, _⟩ | ⟨k1, _⟩
        · by_cases h34 : (nextChar r).1 = 34
          · have ha := hat' (by rw [h34]; decide)
            rw [h34] at hx he es
            have e1 : tokenAt (nextChar r).2 34 = (⟨.string, .buffer⟩, readString (nextChar r).2) := rfl
            rw [e1] at hx he
            cases hx
            have hpot := readStringLoop_pot _ (nextChar r).2.resetBuffer (Nat.le_refl _)
            rw [pot_reset, hk2, ha.rest] at hpot
            unfold Reader.pot at hpot
            simp only [if_true] at hpot
            show (readStringLoop (nextChar r).2.resetBuffer).buf.length ≤ 969
            have : s'.length ≤ 968 := by
              apply Nat.le_of_not_lt
              intro hlt
              refine hb (Or.inr (Or.inr ⟨ts, w, s', es ▸ h1, hw, ?_, hlt⟩))
              intro t v z' hB e
              apply he
              subst e
              exact (readString_complete hB ha.reset).err
            omega
          · by_cases hnum : (nextChar r).1 = 45 ∨ isDigit (nextChar r).1 = true
            · exfalso
              rw [tokenAt_number hnum] at he
              apply he
              show (readNumber _ _).2.err = none
              rw [readNumber_err]
              exact Reader.ok_err hk2
            · generalize (nextChar r).1 = c at *
              generalize (nextChar r).2 = r2 at *
              unfold tokenAt at hx
              rw [if_neg h34, if_neg hnum] at hx
              repeat' split at hx
              all_goals first
                | (cases hx; done)
                | (cases hx; decide)
        · rw [k1] at hk2; cases hk2
        · exact absurd (Reader.ok_err hk2) k1
      · rw [if_neg hk2] at hx; cases hx

/-- the token can be written about -/
def Brief (p : Token × Reader) : Prop := ∀ x, p.1.text p.2 = some x → x.length ≤ 969

theorem length_cstr (s : Bytes) : (cstr s).length ≤ s.length := (List.takeWhile_sublist _).length_le

theorem print_length5 {t : TokType} (h : t ≠ .string) : t.print.length ≤ 5 := by
  cases t <;> first | decide | exact absurd rfl h

theorem print_length (t : TokType) : t.print.length ≤ 6 := by cases t <;> decide

theorem printToken_length {p : Token × Reader} (h : Brief p) : (printToken p.1.type (p.1.text p.2)).length ≤ 985 := by
  unfold printToken
  have h1 := print_length p.1.type
  have e1 : (ascii "<Token ").length = 7 := by decide
  have e2 : (ascii ">").length = 1 := by decide
  have e3 : (ascii ": ").length = 2 := by decide
  cases hx : p.1.text p.2 with
  | none => simp only [List.length_append, List.length_nil, e1, e2]; omega
  | some x =>
    have := h x hx
    simp only [List.length_append, e1, e2, e3]; omega

theorem printToken_length5 {p : Token × Reader} (h : Brief p) (hs : p.1.type ≠ .string) :
    (printToken p.1.type (p.1.text p.2)).length ≤ 984 := by
  unfold printToken
  have h1 := print_length5 hs
  have e1 : (ascii "<Token ").length = 7 := by decide
  have e2 : (ascii ">").length = 1 := by decide
  have e3 : (ascii ": ").length = 2 := by decide
  cases hx : p.1.text p.2 with
  | none => simp only [List.length_append, List.length_nil, e1, e2]; omega
  | some x =>
    have := h x hx
    simp only [List.length_append, e1, e2, e3]; omega

theorem mayAssert_safe {p : Token × Reader} (h : Brief p) (x : TokType) : p.2.mayAssert p.1 x = .ok () := by
  unfold Reader.mayAssert
  split
  · rfl
  · apply format_fits
    unfold Msg.text
    have h1 := printToken_length h
    have h2 := length_cstr (printToken p.1.type (p.1.text p.2))
    have h3 := print_length x
    have e1 : (ascii "unexpected token <").length = 18 := by decide
    have e2 : (ascii ">, expecting <").length = 14 := by decide
    have e3 : (ascii ">").length = 1 := by decide
    simp only [List.length_append, e1, e2, e3]
    omega

theorem invalid_safe {p : Token × Reader} (h : Brief p) {n : String}
    (hn : (ascii n).length ≤ 5 ∨ (p.1.type ≠ .string ∧ (ascii n).length ≤ 6)) : p.1.invalid p.2 n = .err := by
  unfold Token.invalid
  obtain ⟨s, e⟩ := verrorFormat_fits (m := ascii "invalid conversion of token " ++ cstr (printToken p.1.type (p.1.text p.2)) ++
    ascii " to <" ++ ascii n ++ ascii ">") (by
      have h1 := printToken_length h
      have h1' := printToken_length5 h
      have h2 := length_cstr (printToken p.1.type (p.1.text p.2))
      have e1 : (ascii "invalid conversion of token ").length = 28 := by decide
      have e2 : (ascii " to <").length = 5 := by decide
      have e3 : (ascii ">").length = 1 := by decide
      simp only [List.length_append, e1, e2, e3]
      rcases hn with hn | ⟨hn1, hn2⟩
      · omega
      · have := h1' hn1
        omega)
  rw [e]

theorem next_safe (hb : ¬ Unsafe o s0) (h : Hist o s0 Q r) : Safe r.nextToken (fun p =>
    Hist o s0 (fun ts => ∃ ts' v s y, Q ts' ∧ ts = ts' ++ [(p.1, v)] ∧ Reads o s [(p.1, v)] y) p.2 ∧ Brief p) := by
  constructor
  · unfold Reader.nextToken
    split
    · rename_i ht
      unfold Reader.checked
      rw [if_neg (by rw [hist_lex hb h ht]; simp)]
      simp
    · simp
  · intro p hp
    refine ⟨⟨?_, fun hk => ?_⟩, ?_⟩
    · unfold Reader.nextToken at hp
      split at hp
      · rename_i ht
        unfold Reader.checked at hp
        rw [if_neg (by rw [hist_lex hb h ht]; simp)] at hp
        injection hp with hp
        rw [← hp]
        refine ⟨hist_lex hb h ht, fun hx => absurd ?_ hx⟩
        rw [(lexToken_step r).tok]; exact ht
      · injection hp with hp
        rw [← hp]
        exact ⟨h.1.1, fun hx => absurd rfl hx⟩
    · have hstep := ((nextToken_fine r).2 p hp).1
      obtain ⟨ts, y, h1, h2, h3⟩ := h.2 (pstep_ok hstep hk)
      rcases next_sound h2 hp (Reader.ok_err hk) with ⟨_, _, h4⟩ | ⟨v, s', h4, h5, _⟩
      · rw [h4.2.1] at hk; cases hk
      · exact ⟨ts ++ [(p.1, v)], s', reads_append h1 h4, Or.inl h5, ts, v, y, s', h3, rfl, h4⟩
    · unfold Reader.nextToken at hp
      split at hp
      · rename_i ht
        unfold Reader.checked at hp
        rw [if_neg (by rw [hist_lex hb h ht]; simp)] at hp
        injection hp with hp
        rw [← hp]
        exact hist_short hb h ht
      · rename_i ht
        injection hp with hp
        rw [← hp]
        exact h.1.2 ht

theorem peek_safe (hb : ¬ Unsafe o s0) (h : Hist o s0 Q r) : Safe r.peekToken (fun p =>
    Hist o s0 Q p.2 ∧ p.2.tok = p.1 ∧ (p.2.ok = true → p.1.type ≠ .noToken) ∧ (r.tok.type ≠ .noToken → p = (r.tok, r))) := by
  constructor
  · unfold Reader.peekToken
    split
    · rename_i ht
      unfold Reader.checked
      rw [if_neg (by rw [hist_lex hb h ht]; simp)]
      intro hx; cases hx
    · simp
  · intro p hp
    have hstep := ((peekToken_fine r).2 p hp).1
    have key : p.2.ok = true → ∃ ts y, Reads o s0 ts y ∧ Pos o y p.2 ∧ Q ts ∧ p.1.type ≠ .noToken := by
      intro hk
      obtain ⟨ts, y, h1, h2, h3⟩ := h.2 (pstep_ok hstep hk)
      rcases peek_sound h2 hp (Reader.ok_err hk) with ⟨_, _, h4, _⟩ | ⟨v, w, a, s', e, h4, h5, h6, h7, h8⟩
      · rw [h4.2.1] at hk; cases hk
      · exact ⟨ts, y, h1, Or.inr (Or.inl ⟨p.1, v, w, a, s', e, h4, h5, h6, h7, h8⟩), h3, (lexeme_type h5).1⟩
    refine ⟨⟨?_, fun hk => ?_⟩, peek_tok hp, fun hk => ?_, fun ht => ?_⟩
    · unfold Reader.peekToken at hp
      split at hp
      · rename_i ht
        unfold Reader.checked at hp
        rw [if_neg (by rw [hist_lex hb h ht]; simp)] at hp
        injection hp with hp
        rw [← hp]
        exact ⟨hist_lex hb h ht, fun _ => hist_short hb h ht⟩
      · injection hp with hp
        rw [← hp]
        exact h.1
    · obtain ⟨ts, y, h1, h2, h3, _⟩ := key hk
      exact ⟨ts, y, h1, h2, h3⟩
    · obtain ⟨_, _, _, _, _, h4⟩ := key hk
      exact h4
    · unfold Reader.peekToken at hp
      rw [if_neg ht] at hp
      injection hp with hp
      exact hp.symm

theorem assert_safe (h : Hist o s0 Q r) (t : Token) (x : TokType) :
    Hist o s0 (fun ts => Q ts ∧ t.type = x) (r.assertToken t x).2 := by
  unfold Reader.assertToken
  split
  · rename_i hx
    exact h.imp fun _ hq => ⟨hq, hx⟩
  · exact h.error _

theorem expect_safe (hb : ¬ Unsafe o s0) (h : Hist o s0 Q r) (x : TokType) : Safe (r.expectToken x) (fun p =>
    Hist o s0 (fun ts => ∃ ts' t v s y, Q ts' ∧ ts = ts' ++ [(t, v)] ∧ Reads o s [(t, v)] y ∧ t.type = x) p.2 ∧ Brief p) := by
  unfold Reader.expectToken
  refine Safe.bind (next_safe hb h) fun p ⟨hp, hs⟩ => ?_
  rw [mayAssert_safe hs]
  refine Safe.ok ⟨(assert_safe hp p.1 x).imp ?_, ?_⟩
  · rintro ts ⟨⟨ts', v, s, y, h1, h2, h3⟩, h4⟩
    exact ⟨ts', p.1, v, s, y, h1, h2, h3, h4⟩
  · unfold Reader.assertToken
    split
    · exact hs
    · intro x hx; cases hx

/-- a call-back that is safe where a value is due -/
abbrev FnSafe (o : ROpts) (s0 : Bytes) {ι σ : Type} (fn : ι → σ → Reader → Res (σ × Reader)) : Prop :=
  ∀ i a r, Due o s0 r → Safe (fn i a r) (fun p => Inv o s0 p.2)

theorem arrLoop_safe (hb : ¬ Unsafe o s0) {σ : Type} {fn : Nat → σ → Reader → Res (σ × Reader)} (hf : FnSafe o s0 fn) :
    ∀ (n i : Nat) (a : σ) (r : Reader), Due o s0 r → Safe (arrLoop fn n i a r) (fun p => Inv o s0 p.2) := by
  intro n
  induction n with
  | zero => intro i a r _; exact Safe.err (by decide)
  | succ n ih =>
    intro i a r h
    unfold arrLoop
    split
    · refine Safe.bind (hf i a r h) fun q hq => ?_
      refine Safe.bind (next_safe hb hq) fun e ⟨he, hs⟩ => ?_
      split
      · exact Safe.ok he.inv
      · rw [mayAssert_safe hs]
        refine ih _ _ _ ?_
        refine (assert_safe he e.1 .separator).imp ?_
        rintro ts ⟨⟨ts', v, s, y, _, h2, h3⟩, h4⟩
        exact ⟨ts', _, h2, Or.inr (Or.inl ((reads_is h3).2.2.2.2.1 h4))⟩
    · exact Safe.ok h.inv

theorem objLoop_safe (hb : ¬ Unsafe o s0) {σ : Type} {fn : Bytes → σ → Reader → Res (σ × Reader)} (hf : FnSafe o s0 fn) :
    ∀ (n : Nat) (a : σ) (r : Reader), Inv o s0 r → Safe (objLoop fn n a r) (fun p => Inv o s0 p.2) := by
  intro n
  induction n with
  | zero => intro a r _; exact Safe.err (by decide)
  | succ n ih =>
    intro a r h
    unfold objLoop
    split
    · refine Safe.bind (expect_safe hb h .string) fun p ⟨hp, hps⟩ => ?_
      refine Safe.bind (P := fun _ => True) ?_ fun _ _ => ?_
      · unfold Token.asString
        split
        · exact Safe.ok trivial
        · rw [invalid_safe hps (Or.inr ⟨by assumption, by decide⟩)]; exact Safe.err (by decide)
      refine Safe.bind (expect_safe hb hp .keySeparator) fun q ⟨hq, _⟩ => ?_
      refine Safe.bind (hf _ a q.2 (hq.imp ?_)) fun d hd => ?_
      · rintro ts ⟨ts', t, v, s, y, _, h2, h3, h4⟩
        exact ⟨ts', _, h2, Or.inl ((reads_is h3).2.2.2.2.2.1 h4)⟩
      refine Safe.bind (next_safe hb hd) fun e ⟨he, hs⟩ => ?_
      split
      · exact Safe.ok he.inv
      · rw [mayAssert_safe hs]
        exact ih _ _ (assert_safe he e.1 .separator).inv
    · exact Safe.ok h.inv

theorem parseArray_safe (hb : ¬ Unsafe o s0) {σ : Type} {fn : Nat → σ → Reader → Res (σ × Reader)} (hf : FnSafe o s0 fn)
    (n : Nat) (a : σ) (h : Inv o s0 r) : Safe (parseArray fn n a r) (fun p => Inv o s0 p.2) := by
  unfold parseArray
  refine Safe.bind (next_safe hb h) fun p ⟨hp, hs⟩ => ?_
  split
  · exact Safe.ok hp.inv
  · rw [mayAssert_safe hs, okb]
    refine Safe.bind (peek_safe hb (assert_safe hp p.1 .arrayStart)) fun q ⟨hq, ht, hn, _⟩ => ?_
    split
    · exact Safe.bind (expect_safe hb hq _) fun e he => Safe.ok he.1.inv
    · rename_i hne
      refine arrLoop_safe hb hf _ _ _ _ ⟨hq.1, fun hk => ?_⟩
      obtain ⟨ts, y, h1, h2, ⟨ts', v, s, y', _, h3, h4⟩, h5⟩ := hq.2 hk
      exact ⟨ts, y, h1, h2, ts', _, h3, Or.inr (Or.inr ⟨(reads_is h4).2.2.1 h5, by rw [ht]; exact hn hk, by rw [ht]; exact hne⟩)⟩

theorem parseObject_safe (hb : ¬ Unsafe o s0) {σ : Type} {fn : Bytes → σ → Reader → Res (σ × Reader)} (hf : FnSafe o s0 fn)
    (n : Nat) (a : σ) (h : Inv o s0 r) : Safe (parseObject fn n a r) (fun p => Inv o s0 p.2) := by
  unfold parseObject
  refine Safe.bind (next_safe hb h) fun p ⟨hp, hs⟩ => ?_
  split
  · exact Safe.ok hp.inv
  · rw [mayAssert_safe hs, okb]
    refine Safe.bind (peek_safe hb (assert_safe hp p.1 .objectStart)) fun q ⟨hq, ht, hn, _⟩ => ?_
    split
    · exact Safe.bind (expect_safe hb hq _) fun e he => Safe.ok he.1.inv
    · exact objLoop_safe hb hf _ _ _ hq.inv

theorem skip_safe (hb : ¬ Unsafe o s0) (hm : ¬ ValueMissing o s0) : ∀ (n : Nat) (r : Reader), Due o s0 r →
    Safe (skip n r) (fun p => Inv o s0 p) := by
  intro n
  induction n with
  | zero => intro r _; exact Safe.err (by decide)
  | succ n ih =>
    intro r h
    unfold skip
    refine Safe.bind (peek_safe hb h) fun p ⟨hp, ht, hn, hsame⟩ => ?_
    split
    · rename_i hk
      have bad : p.1.type = .separator ∨ p.1.type = .keySeparator ∨ p.1.type = .arrayEnd ∨ p.1.type = .objectEnd → False := by
        intro hty
        obtain ⟨ts, y, h1, h2, ts', t, h3, h4⟩ := hp.2 hk
        rcases h2 with ⟨b, h2⟩ | ⟨t', v, w, a, s', e, g1, g2, g3, g4, _⟩ | ⟨_, _, h2, _⟩
        · exact hn hk (by rw [← ht, h2.tok])
        · have ht' : t' = p.1 := by rw [← g4.tok, ht]
          subst ht'
          have hr : Reads o y [(p.1, v)] s' := by rw [e]; exact reads_single g1 g2 g3
          refine hm ⟨ts', t, (p.1, v), s', ?_, ?_⟩
          · have := reads_append h1 hr
            rw [h3, List.append_assoc] at this
            exact this
          · have hi := reads_is hr
            refine ⟨?_, ?_⟩
            · rcases h4 with h4 | h4 | ⟨h4, h5, h6⟩
              · exact Or.inl h4
              · exact Or.inr (Or.inl h4)
              · refine Or.inr (Or.inr ⟨h4, fun hx => h6 ?_⟩)
                have : p.1 = r.tok := by rw [hsame h5]
                rw [← this]
                injection hx with hx _
                rw [hx]
            · rcases hty with hty | hty | hty | hty
              · exact Or.inl (hi.2.2.2.2.1 hty)
              · exact Or.inr (Or.inl (hi.2.2.2.2.2.1 hty))
              · exact Or.inr (Or.inr (Or.inl (hi.2.2.2.1 hty)))
              · exact Or.inr (Or.inr (Or.inr (hi.2.1 hty)))
        · rw [h2] at hk; cases hk
      have heos : p.1.type ≠ .eos := by
        intro hty
        obtain ⟨ts, y, h1, h2, _⟩ := hp.2 hk
        rcases h2 with ⟨b, h2⟩ | ⟨t', v, w, a, s', e, g1, g2, g3, g4, _⟩ | ⟨_, _, h2, _⟩
        · exact hn hk (by rw [← ht, h2.tok])
        · have ht' : t' = p.1 := by rw [← g4.tok, ht]
          subst ht'
          exact (lexeme_type g2).2 hty
        · rw [h2] at hk; cases hk
      have hfn : ∀ {ι : Type}, FnSafe o s0 (fun (_ : ι) (_ : Unit) r => do .ok ((), ← skip n r)) :=
        fun _ _ r hr => Safe.bind (ih r hr) fun q hq => Safe.ok hq
      cases hty : p.1.type with
      | arrayStart =>
        exact Safe.bind (parseArray_safe hb hfn _ _ hp.inv) fun q hq => Safe.ok hq
      | objectStart =>
        exact Safe.bind (parseObject_safe hb hfn _ _ hp.inv) fun q hq => Safe.ok hq
      | separator => exact absurd (Or.inl hty) bad
      | keySeparator => exact absurd (Or.inr (Or.inl hty)) bad
      | arrayEnd => exact absurd (Or.inr (Or.inr (Or.inl hty))) bad
      | objectEnd => exact absurd (Or.inr (Or.inr (Or.inr hty))) bad
      | eos => exact absurd hty heos
      | noToken => exact absurd hty (hn hk)
      | _ => exact Safe.bind (next_safe hb hp) fun q hq => Safe.ok hq.1.inv
    · exact Safe.ok hp.inv

/-! ### Scalars -/

theorem parseNull_safe (hb : ¬ Unsafe o s0) (h : Inv o s0 r) : Safe (parseNull r) (fun p => Inv o s0 p) := by
  unfold parseNull
  exact Safe.bind (expect_safe hb h _) fun p hp => Safe.ok hp.1.inv

theorem parseBool_safe (hb : ¬ Unsafe o s0) (h : Inv o s0 r) : Safe (parseBool r) (fun p => Inv o s0 p.2) := by
  unfold parseBool
  refine Safe.bind (expect_safe hb h _) fun p ⟨hp, hs⟩ => Safe.bind (P := fun _ => True) ?_ fun b _ => Safe.ok hp.inv
  unfold Token.asBool
  split
  · exact Safe.ok trivial
  · rw [invalid_safe hs (Or.inl (by decide))]; exact Safe.err (by decide)

theorem stol_safe (s : Bytes) : Safe (stol s) (fun _ => True) := by
  unfold stol
  simp only
  repeat' split
  all_goals first
    | exact Safe.ok trivial
    | exact Safe.err (by decide)

theorem parseInt_safe (hb : ¬ Unsafe o s0) (h : Inv o s0 r) : Safe (parseInt r) (fun p => Inv o s0 p.2) := by
  unfold parseInt
  refine Safe.bind (expect_safe hb h _) fun p ⟨hp, hs⟩ => Safe.bind (P := fun _ => True) ?_ fun b _ => Safe.ok hp.inv
  unfold Token.asInt
  split
  · exact stol_safe _
  · rw [invalid_safe hs (Or.inl (by decide))]; exact Safe.err (by decide)

theorem parseString_safe (hb : ¬ Unsafe o s0) (h : Inv o s0 r) : Safe (parseString r) (fun p => Inv o s0 p.2) := by
  unfold parseString
  refine Safe.bind (expect_safe hb h _) fun p ⟨hp, hs⟩ => Safe.bind (P := fun _ => True) ?_ fun b _ => Safe.ok hp.inv
  unfold Token.asString
  split
  · exact Safe.ok trivial
  · rw [invalid_safe hs (Or.inr ⟨by assumption, by decide⟩)]; exact Safe.err (by decide)

theorem parseFloat_safe (hb : ¬ Unsafe o s0) (h : Inv o s0 r) : Safe (parseFloatText r) (fun p => Inv o s0 p.2) := by
  unfold parseFloatText
  refine Safe.bind (next_safe hb h) fun p ⟨hp, hs⟩ => ?_
  have hs2 : Brief (p.1, if p.1.type = .int then p.2 else (p.2.assertToken p.1 .float).2) := by
    split
    · exact hs
    · unfold Reader.assertToken
      split
      · exact hs
      · intro x hx
        rw [show Token.text p.1 (p.2.error _) = p.1.text p.2 from text_error _ _ _] at hx
        exact hs x hx
  have h3 : Inv o s0 (if p.1.type = .int then p.2 else (p.2.assertToken p.1 .float).2) := by
    split
    · exact hp.inv
    · exact (assert_safe hp p.1 .float).inv
  have h4 : (if p.1.type = .int then (.ok () : Res Unit) else p.2.mayAssert p.1 .float) = .ok () := by
    rw [mayAssert_safe hs]; split <;> rfl
  rw [h4, okb]
  refine Safe.bind (P := fun _ => True) ?_ fun b _ => Safe.ok h3
  unfold Token.asFloatText
  split
  · exact Safe.ok trivial
  · rw [invalid_safe hs2 (Or.inl (by decide))]; exact Safe.err (by decide)

theorem stod_safe (hd : ∀ s, env.stod s ≠ .error .ub) (s : Bytes) : Safe (env.stod s) (fun _ => True) :=
  ⟨hd s, fun _ _ => trivial⟩

theorem untyped_safe (hb : ¬ Unsafe o s0) (hd : ∀ s, env.stod s ≠ .error .ub) : ∀ (n : Nat) (v : JV) (r : Reader),
    Inv o s0 r → Safe (parseUntyped env n v r) (fun p => Inv o s0 p.2) := by
  intro n
  induction n with
  | zero => intro v r _; exact Safe.err (by decide)
  | succ n ih =>
    intro v r h
    unfold parseUntyped
    refine Safe.bind (peek_safe hb h) fun p ⟨hp, _⟩ => ?_
    split
    · exact Safe.bind (parseNull_safe hb hp) fun q hq => Safe.ok hq
    · exact Safe.bind (parseBool_safe hb hp) fun q hq => Safe.ok hq
    · exact Safe.bind (parseInt_safe hb hp) fun q hq => Safe.ok hq
    · exact Safe.bind (parseFloat_safe hb hp) fun q hq => Safe.bind (stod_safe hd q.1) fun x _ => Safe.ok hq
    · exact Safe.bind (parseString_safe hb hp) fun q hq => Safe.ok hq
    · refine Safe.bind (parseArray_safe hb ?_ n _ hp) fun q hq => Safe.ok hq
      intro i a r' hr'
      exact Safe.bind (ih .void r' hr'.inv) fun q hq => Safe.ok hq
    · refine Safe.bind (parseObject_safe hb ?_ n _ hp) fun q hq => Safe.ok hq
      intro i a r' hr'
      exact Safe.bind (ih .void r' hr'.inv) fun q hq => Safe.ok hq
    · exact Safe.ok (hp.error _)

theorem construct_safe {t : TyId} (h : ∃ d, env.types[t]? = some d) : Safe (env.construct t) (fun _ => True) := by
  obtain ⟨d, h⟩ := h
  unfold Env.construct
  simp only [h]
  split
  · exact Safe.err (by decide)
  · exact Safe.ok trivial

theorem allocate_safe {t : TyId} (h : ∃ d, env.types[t]? = some d) : Safe (env.allocate t) (fun _ => True) := by
  have hc := construct_safe h
  obtain ⟨d, h⟩ := h
  unfold Env.allocate
  simp only [h]
  split
  · exact hc
  · exact Safe.err (by decide)

/-- Parsing into a value. -/
theorem parseV_safe (hb : ¬ Unsafe o s0) (hc : Good env c) (hT : env.Closed T) (hd : ∀ s, env.stod s ≠ .error .ub)
    (hm : (∃ ty d, T ty ∧ env.Has ty d .object) → ¬ ValueMissing o s0) :
    ∀ (n : Nat) (ty : TyId) (v : JV) (r : Reader), T ty → (Assoc.get c ty).isSome → Inv o s0 r →
    Safe (parseV env c n ty v r) (fun p => Inv o s0 p.2) := by
  intro n
  induction n with
  | zero => intro ty v r _ _ _; exact Safe.err (by decide)
  | succ n ih =>
    intro ty v r ht hsome hr
    have htd : ∀ t, T t → ∃ d, env.types[t]? = some d := fun t h => by
      obtain ⟨d, sh, h, _⟩ := hT.kind t h; exact ⟨d, h⟩
    cases hg : Assoc.get c ty with
    | none => rw [hg] at hsome; cases hsome
    | some st =>
      obtain ⟨td, sh, hh⟩ := hT.kind ty ht
      obtain ⟨st', g1, g2, g3, g4⟩ := good_get hc hh (by rw [hg]; rfl)
      rw [hg] at g1; injection g1 with g1; subst g1
      unfold parseV
      simp only [hg, g2]
      cases sh with
      | bool =>
        simp only [Shape.pk]
        refine Safe.bind (parseBool_safe hb hr) fun p h => ?_
        split
        · exact Safe.ok h
        · exact Safe.err (by decide)
      | int =>
        simp only [Shape.pk]
        refine Safe.bind (parseInt_safe hb hr) fun p h => ?_
        split
        · exact Safe.ok h
        · exact Safe.err (by decide)
      | float =>
        simp only [Shape.pk]
        refine Safe.bind (parseFloat_safe hb hr) fun p h => ?_
        refine Safe.bind (stod_safe hd p.1) fun x _ => ?_
        split
        · exact Safe.ok h
        · exact Safe.err (by decide)
      | string =>
        simp only [Shape.pk]
        refine Safe.bind (parseString_safe hb hr) fun p h => ?_
        split
        · exact Safe.ok h
        · exact Safe.err (by decide)
      | ptr t =>
        obtain ⟨e1, e2⟩ := g3 t (Or.inl rfl)
        have htt := hT.ptr ty td t ht hh
        simp only [Shape.pk, e1]
        refine Safe.bind (peek_safe hb hr) fun p ⟨hp, _⟩ => ?_
        split
        · exact Safe.bind (next_safe hb hp) fun q hq => Safe.ok hq.1.inv
        · cases v with
          | ptr w => exact Safe.bind (ih t w p.2 htt e2 hp) fun q hq => Safe.ok hq
          | null =>
            refine Safe.bind (allocate_safe (htd t htt)) fun m _ => ?_
            exact Safe.bind (ih t m p.2 htt e2 hp) fun q hq => Safe.ok hq
          | _ => exact Safe.err (by decide)
      | list t =>
        obtain ⟨e1, e2⟩ := g3 t (Or.inr (Or.inl rfl))
        have htt := hT.list ty td t ht hh
        simp only [Shape.pk, e1]
        cases v with
        | list vs =>
          simp only
          refine Safe.bind (parseArray_safe hb ?_ n vs hr) fun q hq => Safe.ok hq
          intro i a r' hr'
          refine Safe.bind (construct_safe (htd t htt)) fun m _ => ?_
          refine Safe.bind (ih t m r' htt e2 hr'.inv) fun q hq => ?_
          split <;> exact Safe.ok hq
        | _ => exact Safe.err (by decide)
      | map t =>
        obtain ⟨e1, e2⟩ := g3 t (Or.inr (Or.inr rfl))
        have htt := hT.map ty td t ht hh
        simp only [Shape.pk, e1]
        cases v with
        | map m =>
          simp only
          refine Safe.bind (parseObject_safe hb ?_ n m hr) fun q hq => Safe.ok hq
          intro i a r' hr'
          refine Safe.bind (construct_safe (htd t htt)) fun m _ => ?_
          refine Safe.bind (ih t m r' htt e2 hr'.inv) fun q hq => ?_
          split <;> exact Safe.ok hq
        | _ => exact Safe.err (by decide)
      | void =>
        simp only [Shape.pk]
        exact untyped_safe hb hd n v r hr
      | object =>
        simp only [Shape.pk]
        cases v with
        | obj fs =>
          simp only
          refine Safe.bind (parseObject_safe hb ?_ n fs hr) fun q hq => Safe.ok hq
          intro i a r' hr'
          simp only
          split
          · exact Safe.bind (skip_safe hb (hm ⟨ty, td, ht, hh⟩) n r' hr') fun q hq => Safe.ok hq
          · rename_i k hkey
            split
            · exact Safe.err (by decide)
            · rename_i t hf
              split
              · exact Safe.err (by decide)
              · rename_i x hx
                have htt : T t ∧ (Assoc.get c t).isSome := by
                  by_cases hmem : i ∈ td.keys
                  · obtain ⟨f, hfm, hfa⟩ := List.mem_filterMap.mp hmem
                    obtain ⟨k1, k2, k3⟩ := (g4 rfl).1 f hfm i hfa
                    rw [hkey] at k1; injection k1 with k1; subst k1
                    rw [hf] at k2; injection k2 with k2; subst k2
                    exact ⟨hT.field ty td f ht hh hfm (by rw [hfa]; simp), k3⟩
                  · have := (g4 rfl).2 i hmem
                    rw [this] at hkey; cases hkey
                exact Safe.bind (ih t x r' htt.1 htt.2 hr'.inv) fun q hq => Safe.ok hq
        | _ => exact Safe.err (by decide)

end Reflect.Json
