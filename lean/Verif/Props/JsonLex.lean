import Verif.Lemmas.Json.Col
import Verif.Lemmas.Json.SkipEnd
/-
  Properties of the JSON reader: tokens, strings, skipping, separators, errors
  (C39, C41, C42, C44, C47, C49).
-/
namespace Reflect.Json

/-- `Accepted o s ts`: draining a reader opened on `s` delivers the tokens `ts` and no error. -/
def Accepted (o : ROpts) (s : Bytes) (ts : List Tok) : Prop :=
  ∃ n r', readAll n (Reader.open o s) = .ok (ts, r') ∧ r'.err = none

/-! ### C39: reading terminates, with bounded memory -/

/-- Every call of `nextToken`, on any reader in any state, consumes a prefix of what is left, and a
non-empty one when it delivers a token that was not looked ahead at, other than the end of the stream. -/
theorem C39_token_progress (r r' : Reader) (t : Token) (h : r.nextToken = .ok (t, r'))
    (ht : r.tok.type = .noToken) :
    ∃ u, r.rest = u ++ r'.rest ∧ (t.type ≠ .eos → u ≠ []) := by
  unfold Reader.nextToken at h
  rw [if_pos ht] at h
  unfold Reader.checked at h
  split at h
  · cases h
  · injection h with h
    have hs := lexToken_step r
    obtain ⟨u, hu, _⟩ := hs.used
    rw [h] at hu
    refine ⟨u, hu, ?_⟩
    intro hne hu0
    have := lexToken_progress r (by rw [h]; exact hne)
    rw [h] at this
    simp only at this
    rw [hu, hu0] at this
    simp at this

theorem readAll_ends : ∀ (n : Nat) (r : Reader), r.tok.type = .noToken → r.left < n →
    readAll n r ≠ .error .diverge := by
  intro n
  induction n with
  | zero => intro r _ h; omega
  | succ n ih =>
    intro r ht hl
    rw [readAll]
    have hf := nextToken_fine r
    cases hn : r.nextToken with
    | error e => rw [hn] at hf; intro h; exact hf.1 (by injection h with h; rw [h])
    | ok p =>
      have hp := hf.2 p hn
      rw [okb]
      split
      · simp
      · rename_i hne
        have hlex : p = lexToken r := by
          unfold Reader.nextToken at hn
          rw [if_pos ht] at hn
          unfold Reader.checked at hn
          split at hn
          · cases hn
          · injection hn with hn; exact hn.symm
        have hok : r.ok = true := by
          apply Classical.byContradiction
          intro hk
          apply hne
          rw [hlex]
          unfold lexToken
          rw [if_neg hk]
        have htok : p.2.tok.type = .noToken := by rw [hlex, (lexToken_step r).tok]; exact ht
        have hpos := left_pos hok
        have := ih p.2 htok (by omega)
        cases hq : readAll n p.2 with
        | error e => rw [hq] at this; intro h; exact this h
        | ok q => rw [okb]; simp

/-- Draining a reader opened on any bytes ends after at most one call per byte plus one. -/
theorem C39_draining_ends (o : ROpts) (s : Bytes) (n : Nat) (hn : s.length + 1 < n) :
    readAll n (Reader.open o s) ≠ .error .diverge :=
  readAll_ends n _ rfl (by
    have : (Reader.open o s).left = s.length + 1 := rfl
    omega)

/-- Skipping ends on every reader in every state: there is one outcome, which is not divergence, and
the recursion and all loops together need no more than the number of unread bytes plus three. -/
theorem C39_skip_ends (r : Reader) :
    ∃ x, x ≠ .error .diverge ∧ ∀ n, r.rest.length + 3 ≤ n → skip n r = x := by
  have hl : r.left < r.rest.length + 3 := by
    unfold Reader.left
    repeat' split
    all_goals omega
  refine ⟨skip (r.rest.length + 3) r, (skip_fine _ r hl).1, ?_⟩
  intro n hn
  rcases skip_le _ n hn r with h | h
  · exact absurd h (skip_fine _ r hl).1
  · exact h

theorem runOps_buf : ∀ (l : List ROp) (r r' : Reader) (n : Nat), runOps l r = .ok r' → r.rest.length ≤ n →
    r.buf.length ≤ n + 1 → r'.rest.length ≤ n ∧ r'.buf.length ≤ n + 1 := by
  have hlex : ∀ (r : Reader) n, r.rest.length ≤ n → r.buf.length ≤ n + 1 →
      (lexToken r).2.rest.length ≤ n ∧ (lexToken r).2.buf.length ≤ n + 1 := by
    intro r n h1 h2
    have h3 := (lexToken_step r).length_le
    rcases lexToken_buf r with h | h
    · rw [h]; omega
    · omega
  have hnext : ∀ (r : Reader) p n, r.nextToken = .ok p → r.rest.length ≤ n → r.buf.length ≤ n + 1 →
      p.2.rest.length ≤ n ∧ p.2.buf.length ≤ n + 1 := by
    intro r p n h h1 h2
    unfold Reader.nextToken at h
    split at h
    · unfold Reader.checked at h
      split at h
      · cases h
      · injection h with h; rw [← h]; exact hlex r n h1 h2
    · injection h with h; rw [← h]; exact ⟨h1, h2⟩
  have herr : ∀ (r : Reader) m, (r.error m).rest = r.rest ∧ (r.error m).buf = r.buf := by
    intro r m; unfold Reader.error; split <;> exact ⟨rfl, rfl⟩
  intro l
  induction l with
  | nil => intro r r' n h h1 h2; injection h with h; rw [← h]; exact ⟨h1, h2⟩
  | cons op l ih =>
    intro r r' n h h1 h2
    cases op with
    | peek =>
      rw [runOps] at h
      cases hp : r.peekToken with
      | error e => rw [hp] at h; cases h
      | ok p =>
        rw [hp, okb] at h
        refine ih p.2 r' n h ?_ ?_ <;> unfold Reader.peekToken at hp <;> split at hp
        · unfold Reader.checked at hp
          split at hp
          · cases hp
          · rw [okb] at hp; injection hp with hp; rw [← hp]; exact (hlex r n h1 h2).1
        · injection hp with hp; rw [← hp]; exact h1
        · unfold Reader.checked at hp
          split at hp
          · cases hp
          · rw [okb] at hp; injection hp with hp; rw [← hp]; exact (hlex r n h1 h2).2
        · injection hp with hp; rw [← hp]; exact h2
    | next =>
      rw [runOps] at h
      cases hp : r.nextToken with
      | error e => rw [hp] at h; cases h
      | ok p =>
        rw [hp, okb] at h
        have := hnext r p n hp h1 h2
        exact ih p.2 r' n h this.1 this.2
    | expect t =>
      rw [runOps] at h
      unfold Reader.expectToken at h
      cases hp : r.nextToken with
      | error e => rw [hp] at h; cases h
      | ok p =>
        rw [hp, okb] at h
        cases hm : p.2.mayAssert p.1 t with
        | error e => rw [hm] at h; cases h
        | ok u =>
        rw [hm] at h
        replace h : runOps l (p.2.assertToken p.1 t).2 = .ok r' := h
        have := hnext r p n hp h1 h2
        refine ih _ r' n h ?_ ?_
        · show (p.2.assertToken p.1 t).2.rest.length ≤ n
          unfold Reader.assertToken
          split
          · exact this.1
          · rw [(herr _ _).1]; exact this.1
        · show (p.2.assertToken p.1 t).2.buf.length ≤ n + 1
          unfold Reader.assertToken
          split
          · exact this.2
          · rw [(herr _ _).2]; exact this.2
    | error m =>
      rw [runOps] at h
      exact ih _ r' n h (by rw [(herr r m).1]; exact h1) (by rw [(herr r m).2]; exact h2)

/-- Whatever calls are made on a reader opened on `s`, its buffer never exceeds the length of `s` by
more than one byte. -/
theorem C39_memory (o : ROpts) (s : Bytes) (l : List ROp) (r' : Reader)
    (h : runOps l (Reader.open o s) = .ok r') : r'.buf.length ≤ s.length + 1 :=
  (runOps_buf l _ r' s.length h (Nat.le_refl _) (Nat.zero_le _)).2

/-- non-vacuity: `[1,"a"]` -/
example : ∃ r', runOps [.next, .next, .next, .peek] (Reader.open ROpts.default [91, 49, 44, 34, 97, 34, 93]) = .ok r' ∧
    r'.buf = [97] := by
  obtain ⟨r', h1, h2⟩ := Res.run (x := runOps [.next, .next, .next, .peek]
    (Reader.open ROpts.default [91, 49, 44, 34, 97, 34, 93])) (fun r => r.buf == [97]) (by decide +kernel)
  exact ⟨r', h1, by simpa using h2⟩

/-! ### C41: UTF-8 validation -/

theorem strBody_plain (o : ROpts) (hv : o.validateUnicode = true) {s v : Bytes} (h : StrBody o s v)
    (h92 : (92 : Byte) ∉ s) : v = s ∧ ∃ ns : List Nat, (∀ n ∈ ns, n < 0x200000) ∧ s = ns.flatMap utf8 := by
  induction h with
  | nil => exact ⟨rfl, [], by simp, rfl⟩
  | plain c t v h1 h2 h3 h4 _ ih =>
    obtain ⟨rfl, ns, h5, h6⟩ := ih (by simp at h92; exact h92.2)
    refine ⟨rfl, c.toNat :: ns, ?_, ?_⟩
    · have := byte_lt c
      intro n hn
      simp at hn
      rcases hn with rfl | hn
      · omega
      · exact h5 n hn
    · rcases h4 with h4 | h4
      · rw [List.flatMap_cons, ← h6]
        unfold utf8
        rw [if_pos h4]
        simp
      · rw [hv] at h4; cases h4
  | utf8 n t v _ h1 h2 _ ih =>
    obtain ⟨rfl, ns, h5, h6⟩ := ih (by simp at h92; exact h92.2)
    refine ⟨rfl, n :: ns, ?_, by rw [List.flatMap_cons, ← h6]⟩
    intro m hm
    simp at hm
    rcases hm with rfl | hm
    · exact h2
    · exact h5 m hm
  | escape c e t v _ _ _ => simp at h92
  | unicode a b c d i j k l t v _ _ _ _ _ _ _ => simp at h92
  | rawUnicode a b c d i j k l t v _ _ _ _ _ _ _ => simp at h92

theorem utf8_mem_lt {n : Nat} (h : n < 0x200000) {c : Byte} (hc : c ∈ utf8 n) (hlt : c.toNat < 0x80) :
    utf8 n = [c] ∧ n < 0x80 := by
  by_cases hn : n < 0x80
  · have e : utf8 n = [UInt8.ofNat n] := by unfold utf8; rw [if_pos hn]
    rw [e] at hc ⊢
    simp at hc
    exact ⟨by rw [hc], hn⟩
  · exfalso
    obtain ⟨c', tl, k, h1, _, _, _, _, h2, h3, _⟩ := utf8_shape (by omega) h
    rw [h1] at hc
    simp at hc
    rcases hc with rfl | hc
    · omega
    · have := (h2 c hc).1; omega

theorem strBody_of_utf8 (o : ROpts) (hv : o.validateUnicode = true) : ∀ (ns : List Nat),
    (∀ n ∈ ns, n < 0x200000) → (34 : Byte) ∉ ns.flatMap utf8 → (92 : Byte) ∉ ns.flatMap utf8 →
    (10 : Byte) ∉ ns.flatMap utf8 → StrBody o (ns.flatMap utf8) (ns.flatMap utf8) := by
  intro ns
  induction ns with
  | nil => intro _ _ _ _; exact StrBody.nil
  | cons n ns ih =>
    intro h1 h2 h3 h4
    rw [List.flatMap_cons] at h2 h3 h4 ⊢
    simp only [List.mem_append, not_or] at h2 h3 h4
    have hi := ih (fun m hm => h1 m (by simp [hm])) h2.2 h3.2 h4.2
    have hn := h1 n (by simp)
    by_cases h80 : n < 0x80
    · have e : utf8 n = [UInt8.ofNat n] := by unfold utf8; rw [if_pos h80]
      rw [e] at h2 h3 h4 ⊢
      simp at h2 h3 h4
      refine StrBody.plain _ _ _ (fun hx => h2.1 hx.symm) (fun hx => h3.1 hx.symm) (fun hx => h4.1 hx.symm) ?_ hi
      left
      rw [toNat_ofNat (by omega)]; exact h80
    · exact StrBody.utf8 n _ _ hv (by omega) hn hi

theorem strBody_raw (o : ROpts) (hv : o.validateUnicode = false) : ∀ (s : Bytes),
    (34 : Byte) ∉ s → (92 : Byte) ∉ s → (10 : Byte) ∉ s → StrBody o s s := by
  intro s
  induction s with
  | nil => intro _ _ _; exact StrBody.nil
  | cons c s ih =>
    intro h1 h2 h3
    simp only [List.mem_cons, not_or] at h1 h2 h3
    exact StrBody.plain c s s (fun h => h1.1 h.symm) (fun h => h2.1 h.symm) (fun h => h3.1 h.symm) (Or.inr hv)
      (ih h1.2 h2.2 h3.2)

/-- A string token is accepted exactly when its body is, whatever comes after it. -/
theorem string_token {o : ROpts} {s v y : Bytes} (h : StrBody o s v) :
    ∃ r', (Reader.open o (34 :: (s ++ 34 :: y))).nextToken = .ok (⟨.string, .buffer⟩, r') ∧ r'.err = none ∧
      r'.buf = v ∧ r'.rest = y := by
  have hr : Reads o (34 :: (s ++ 34 :: y)) [Tok.str v] y := by
    have := Reads.cons (o := o) [] ([34] ++ s ++ [34]) y y ⟨.string, .buffer⟩ (some v) [] Sep.nil
      (Lexeme.string s v h) (by intro h; rcases h with h | h <;> cases h) (Reads.nil y)
    simpa [Tok.str] using this
  obtain ⟨r', h1, h2, h3⟩ := (FedR.open hr).fed.next
  exact ⟨r', h1, h2.err, h3 v rfl, h2.rest⟩

theorem string_token_inv {o : ROpts} {s y : Bytes} {r' : Reader} {t : Token}
    (h : (Reader.open o (34 :: (s ++ 34 :: y))).nextToken = .ok (t, r')) (he : r'.err = none)
    (h34 : (34 : Byte) ∉ s) (h92 : (92 : Byte) ∉ s) : ∃ v, StrBody o s v := by
  have hat := At.open o (34 :: (s ++ 34 :: y))
  have hl : lexToken (Reader.open o (34 :: (s ++ 34 :: y))) = (t, r') := by
    have ht : (Reader.open o (34 :: (s ++ 34 :: y))).tok.type = .noToken := rfl
    unfold Reader.nextToken Reader.checked at h
    rw [if_pos ht] at h
    split at h
    · cases h
    · injection h
  have := lex_sound hat (by rw [hl]; exact he)
  rcases this with ⟨_, _, w, hw, ht⟩ | ⟨w, a, v, s', hs, hw, hl, _, _⟩
  · exfalso
    by_cases hne : w = []
    · subst hne
      rcases ht with ht | ⟨_, body, _, ht⟩
      · cases ht
      · simp at ht
    · obtain ⟨c, w', rfl, hc⟩ := sep_head hw hne
      have : c = 34 := by
        rcases ht with ht | ⟨_, body, _, ht⟩
        · injection ht with e _; exact e.symm
        · simp at ht; exact ht.1.symm
      subst this
      revert hc; decide
  · have hw0 : w = [] := by
      apply Classical.byContradiction
      intro hne
      obtain ⟨c, w', rfl, hc⟩ := sep_head hw hne
      have : c = 34 := by
        simp at hs; exact hs.1.symm
      subst this
      revert hc; decide
    subst hw0
    rw [List.nil_append] at hs
    have hnum : ∀ x : Bytes, IntText x → x.head? = some 34 → False := by
      intro x ⟨c, ds, h1, h2, _⟩ h3
      subst h1
      simp at h3; subst h3
      rcases h2 with h2 | h2
      · cases h2
      · exact absurd (h2 34 (by simp)) (by decide)
    generalize (lexToken (Reader.open o (34 :: (s ++ 34 :: y)))).1 = tk at hl
    cases hl with
    | string t v hb =>
      simp at hs
      have ht : t = s := by
        rcases Nat.lt_trichotomy t.length s.length with hlt | heq | hgt
        · exfalso
          apply h34
          have := congrArg (fun l => l[t.length]?) hs
          simp only [List.getElem?_append_right (Nat.le_refl t.length), Nat.sub_self,
            List.getElem?_append_left hlt, List.getElem?_cons_zero] at this
          exact List.mem_of_getElem? this
        · exact (List.append_inj hs heq.symm).1.symm
        · -- the quote after `s` lies inside `t`, where it must be escaped
          exfalso
          obtain ⟨t2, rfl⟩ : ∃ t2, t = s ++ t2 := by
            have : s <+: t := by
              apply List.prefix_of_prefix_length_le (l₃ := t ++ 34 :: s')
              · rw [← hs]; exact List.prefix_append _ _
              · exact List.prefix_append _ _
              · omega
            obtain ⟨t2, h⟩ := this; exact ⟨t2, h.symm⟩
          rw [List.append_assoc] at hs
          have hs2 := List.append_cancel_left hs
          cases t2 with
          | nil => simp at hgt
          | cons q t2 =>
            injection hs2 with hq _
            subst hq
            have key : ∀ (t v : Bytes), StrBody o t v → ∀ p q, t = p ++ 34 :: q → (92 : Byte) ∉ p → False := by
              intro t v hb
              induction hb with
              | nil => intro p q h; simp at h
              | plain c t v h1 _ _ _ _ ih =>
                intro p q h hp
                cases p with
                | nil => injection h with h _; exact h1 h
                | cons d p =>
                  injection h with _ h
                  exact ih p q h (by simp at hp; exact hp.2)
              | utf8 n t v _ h1 h2 _ ih =>
                intro p q h hp
                rcases List.append_eq_append_iff.mp h with ⟨a, ha1, ha2⟩ | ⟨a, ha1, ha2⟩
                · exact ih a q ha2 (by rw [ha1] at hp; simp at hp; exact hp.2)
                · have hm : (34 : Byte) ∈ utf8 n ∨ a = [] := by
                    cases a with
                    | nil => exact Or.inr rfl
                    | cons x a => injection ha2 with hx _; left; rw [ha1, hx]; simp
                  rcases hm with hm | hm
                  · have := (utf8_mem_lt h2 hm (by decide)).2; omega
                  · subst hm
                    exact ih [] q ha2.symm (by simp)
              | escape c e t v _ _ _ =>
                intro p q h hp
                cases p with
                | nil => injection h with h _; exact absurd h (by decide)
                | cons d p => injection h with h _; subst h; simp at hp
              | unicode a b c d i j k l t v _ _ _ _ _ _ _ =>
                intro p q h hp
                cases p with
                | nil => injection h with h _; exact absurd h (by decide)
                | cons d p => injection h with h _; subst h; simp at hp
              | rawUnicode a b c d i j k l t v _ _ _ _ _ _ _ =>
                intro p q h hp
                cases p with
                | nil => injection h with h _; exact absurd h (by decide)
                | cons d p => injection h with h _; subst h; simp at hp
            exact key _ _ hb s t2 rfl h92
      subst ht
      exact ⟨_, hb⟩
    | int x hx =>
      refine absurd ?_ (fun h => hnum _ hx h)
      obtain ⟨c, ds, rfl, _⟩ := hx
      simp at hs
      simp [hs.1]
    | float x hx =>
      obtain ⟨i, f, e, rfl, hi, _⟩ := hx
      refine absurd ?_ (fun h => hnum i hi h)
      obtain ⟨c, ds, rfl, _⟩ := hi
      simp at hs
      simp [hs.1]
    | _ => simp at hs

/-- With validation on, a string whose body `s` has no quote, backslash or newline is accepted exactly
when `s` is a sequence of shortest-form encodings of numbers below 2^21, and then it is delivered
unchanged. -/
theorem C41_validation_exact (o : ROpts) (hv : o.validateUnicode = true) (s y : Bytes)
    (h34 : (34 : Byte) ∉ s) (h92 : (92 : Byte) ∉ s) (h10 : (10 : Byte) ∉ s) :
    (∃ t r', (Reader.open o (34 :: (s ++ 34 :: y))).nextToken = .ok (t, r') ∧ r'.err = none)
      ↔ ∃ ns : List Nat, (∀ n ∈ ns, n < 0x200000) ∧ s = ns.flatMap utf8 := by
  constructor
  · rintro ⟨t, r', h, he⟩
    obtain ⟨v, hb⟩ := string_token_inv h he h34 h92
    exact (strBody_plain o hv hb h92).2
  · rintro ⟨ns, h1, rfl⟩
    obtain ⟨r', h2, h3, _⟩ := string_token (y := y) (strBody_of_utf8 o hv ns h1 h34 h92 h10)
    exact ⟨_, r', h2, h3⟩

/-- An accepted string of that kind is delivered unchanged, with and without validation. -/
theorem C41_unchanged (o : ROpts) (s y : Bytes) (h34 : (34 : Byte) ∉ s) (h92 : (92 : Byte) ∉ s)
    (h10 : (10 : Byte) ∉ s)
    (h : o.validateUnicode = true → ∃ ns : List Nat, (∀ n ∈ ns, n < 0x200000) ∧ s = ns.flatMap utf8) :
    ∃ r', (Reader.open o (34 :: (s ++ 34 :: y))).nextToken = .ok (⟨.string, .buffer⟩, r') ∧ r'.err = none ∧
      r'.buf = s ∧ r'.rest = y := by
  cases hv : o.validateUnicode with
  | true =>
    obtain ⟨ns, h1, rfl⟩ := h hv
    exact string_token (strBody_of_utf8 o hv ns h1 h34 h92 h10)
  | false => exact string_token (strBody_raw o hv s h34 h92 h10)

/-- Not UTF-8 as RFC 3629 has it: a lone surrogate and a number above 0x10FFFF are accepted. -/
theorem C41_accepts_surrogates_and_beyond :
    (∃ r', (Reader.open ROpts.default (34 :: (utf8 0xD800 ++ 34 :: []))).nextToken = .ok (⟨.string, .buffer⟩, r') ∧
      r'.err = none ∧ r'.buf = [0xED, 0xA0, 0x80]) ∧
    (∃ r', (Reader.open ROpts.default (34 :: (utf8 0x1FFFFF ++ 34 :: []))).nextToken = .ok (⟨.string, .buffer⟩, r') ∧
      r'.err = none ∧ r'.buf = [0xF7, 0xBF, 0xBF, 0xBF]) :=
by
  constructor
  · obtain ⟨⟨t, r'⟩, h1, h2⟩ := Res.run (x := (Reader.open ROpts.default (34 :: (utf8 0xD800 ++ 34 :: []))).nextToken)
      (fun p => p.1 == ⟨.string, .buffer⟩ && p.2.err == none && p.2.buf == [0xED, 0xA0, 0x80]) (by decide +kernel)
    simp at h2
    exact ⟨r', by rw [h1, h2.1.1], h2.1.2, h2.2⟩
  · obtain ⟨⟨t, r'⟩, h1, h2⟩ := Res.run (x := (Reader.open ROpts.default (34 :: (utf8 0x1FFFFF ++ 34 :: []))).nextToken)
      (fun p => p.1 == ⟨.string, .buffer⟩ && p.2.err == none && p.2.buf == [0xF7, 0xBF, 0xBF, 0xBF]) (by decide +kernel)
    simp at h2
    exact ⟨r', by rw [h1, h2.1.1], h2.1.2, h2.2⟩

/-- An overlong form and a bare continuation byte are refused with an error. -/
theorem C41_refusals :
    (∃ t r' e, (Reader.open ROpts.default [34, 0xC0, 0x80, 34]).nextToken = .ok (t, r') ∧ r'.err = some e ∧
      e.msg = .utf8Encoding) ∧
    (∃ t r' e, (Reader.open ROpts.default [34, 0x80, 34]).nextToken = .ok (t, r') ∧ r'.err = some e ∧
      e.msg = .utf8Header 0x80) := by
  constructor
  · obtain ⟨⟨t, r'⟩, h1, h2⟩ := Res.run (x := (Reader.open ROpts.default [34, 0xC0, 0x80, 34]).nextToken)
      (fun p => p.2.err.any (·.msg == .utf8Encoding)) (by decide +kernel)
    cases he : r'.err with
    | none => simp [he] at h2
    | some e => exact ⟨t, r', e, h1, he, by simpa [he] using h2⟩
  · obtain ⟨⟨t, r'⟩, h1, h2⟩ := Res.run (x := (Reader.open ROpts.default [34, 0x80, 34]).nextToken)
      (fun p => p.2.err.any (·.msg == .utf8Header 0x80)) (by decide +kernel)
    cases he : r'.err with
    | none => simp [he] at h2
    | some e => exact ⟨t, r', e, h1, he, by simpa [he] using h2⟩

/-- The byte 0xFF, which no encoding contains, is not refused but runs into undefined behaviour. -/
theorem C41_byte_FF_undefined (o : ROpts) (hv : o.validateUnicode = true) (t v s : Bytes) (ht : StrBody o t v) :
    (Reader.open o (34 :: (t ++ 0xFF :: s))).nextToken = .error .ub := by
  have hok := (At.open o (34 :: (t ++ 0xFF :: s))).ok
  have htk : (Reader.open o (34 :: (t ++ 0xFF :: s))).tok.type = .noToken := rfl
  have hat := (At.open o (34 :: (t ++ 0xFF :: s))).pop
  have hnc : nextChar (Reader.open o (34 :: (t ++ 0xFF :: s))) =
      (34, (Reader.open o (34 :: (t ++ 0xFF :: s))).pop.2) := by
    rw [nextChar.eq_def, dif_pos hok]
    simp only [hat.1]
    rw [if_neg (by decide), if_neg (by decide)]; rfl
  unfold Reader.nextToken
  rw [if_pos htk]
  unfold lexToken
  rw [if_pos hok, hnc]
  simp only
  rw [if_pos hat.2.ok]
  generalize (Reader.open o (34 :: (t ++ 0xFF :: s))).pop.2 = r at hat
  have h1 := hat.2
  have e : tokenAt r 34 = (⟨.string, .buffer⟩, readStringLoop r.resetBuffer) := rfl
  rw [e]
  obtain ⟨r', h', e'⟩ := readString_prefix (s := 0xFF :: s) ht h1.reset
  rw [e']
  have hp := h'.pop
  have hub : (readStringLoop r').ub = true := by
    rw [readStringLoop.eq_def, dif_pos h'.ok]
    simp only [hp.1]
    rw [if_neg (by decide), if_pos ⟨by decide, by rw [hp.2.opts]; exact hv⟩]
    have e : leadingOnes 0xFF = none := by decide
    unfold validateUnicode
    rw [e]
    have hne : (({ (r'.pop.2.save 0xFF).error (.utf8Header 0xFF) with ub := true } : Reader)).ok = false :=
      Reader.error_not_ok (r'.pop.2.save 0xFF) (.utf8Header 0xFF)
    simp only
    rw [readStringLoop_not_ok hne]
    simp
  unfold Reader.checked
  rw [hub]
  rfl

/-! ### C42: unicode escapes -/

theorem strBody_append {o : ROpts} {t v t' v' : Bytes} (h : StrBody o t v) (h' : StrBody o t' v') :
    StrBody o (t ++ t') (v ++ v') := by
  induction h with
  | nil => exact h'
  | plain c t v h1 h2 h3 h4 _ ih => exact StrBody.plain c _ _ h1 h2 h3 h4 ih
  | utf8 n t v h1 h2 h3 _ ih =>
    have := StrBody.utf8 n _ _ h1 h2 h3 ih
    simpa using this
  | escape c e t v h1 _ ih => exact StrBody.escape c e _ _ h1 ih
  | unicode a b c d i j k l t v h1 h2 h3 h4 h5 _ ih =>
    have := StrBody.unicode a b c d i j k l _ _ h1 h2 h3 h4 h5 ih
    simpa using this
  | rawUnicode a b c d i j k l t v h1 h2 h3 h4 h5 _ ih =>
    exact StrBody.rawUnicode a b c d i j k l _ _ h1 h2 h3 h4 h5 ih

/-- Wherever it occurs in a string, a `\uXXXX` escape with any hexadecimal digits stands for the UTF-8
encoding of its value. -/
theorem C42_escape_decodes (o : ROpts) (ho : o.unescapeUnicode = true) (t v t' v' y : Bytes)
    (ht : StrBody o t v) (ht' : StrBody o t' v') (a b c d : Byte) (i j k l : Nat)
    (ha : IsHex a i) (hb : IsHex b j) (hc : IsHex c k) (hd : IsHex d l) :
    ∃ r', (Reader.open o (34 :: ((t ++ [92, 117, a, b, c, d] ++ t') ++ 34 :: y))).nextToken
        = .ok (⟨.string, .buffer⟩, r') ∧ r'.err = none ∧
      r'.buf = v ++ utf8 (4096 * i + 256 * j + 16 * k + l) ++ v' ∧ r'.rest = y := by
  have h1 := StrBody.unicode a b c d i j k l [] [] ho ha hb hc hd StrBody.nil
  rw [List.append_nil] at h1
  exact string_token (strBody_append (strBody_append ht h1) ht')

/-- Every number below 2^16 has such an escape, and the digits determine it. -/
theorem C42_every_code (n : Nat) (hn : n < 0x10000) : ∃ a b c d i j k l, IsHex a i ∧ IsHex b j ∧ IsHex c k ∧
    IsHex d l ∧ 4096 * i + 256 * j + 16 * k + l = n := by
  have hex : ∀ v, v < 16 → ∃ c, IsHex c v := by
    intro v hv
    by_cases h : v < 10
    · exact ⟨_, IsHex.digit v h⟩
    · have := IsHex.lower (v - 10) (by omega)
      rw [show 10 + (v - 10) = v by omega] at this
      exact ⟨_, this⟩
  obtain ⟨a, ha⟩ := hex (n / 4096) (by omega)
  obtain ⟨b, hb⟩ := hex (n / 256 % 16) (by omega)
  obtain ⟨c, hc⟩ := hex (n / 16 % 16) (by omega)
  obtain ⟨d, hd⟩ := hex (n % 16) (by omega)
  exact ⟨a, b, c, d, _, _, _, _, ha, hb, hc, hd, by omega⟩

theorem utf8_length (n : Nat) (h : 0x800 ≤ n) (h2 : n < 0x10000) : (utf8 n).length = 3 := by
  unfold utf8
  rw [if_neg (by omega), if_neg (by omega), if_pos h2]; rfl

/-- A surrogate pair is read as two separate three-byte sequences, never as the character it means. -/
theorem C42_surrogate_pairs_not_combined (o : ROpts) (ho : o.unescapeUnicode = true) (y : Bytes)
    (a b c d a' b' c' d' : Byte) (i j k l i' j' k' l' : Nat)
    (ha : IsHex a i) (hb : IsHex b j) (hc : IsHex c k) (hd : IsHex d l)
    (ha' : IsHex a' i') (hb' : IsHex b' j') (hc' : IsHex c' k') (hd' : IsHex d' l')
    (hi lo : Nat) (ehi : hi = 4096 * i + 256 * j + 16 * k + l) (elo : lo = 4096 * i' + 256 * j' + 16 * k' + l')
    (hhi : 0xD800 ≤ hi ∧ hi < 0xDC00) (hlo : 0xDC00 ≤ lo ∧ lo < 0xE000) :
    ∃ r', (Reader.open o (34 :: ([92, 117, a, b, c, d, 92, 117, a', b', c', d'] ++ 34 :: y))).nextToken
        = .ok (⟨.string, .buffer⟩, r') ∧ r'.err = none ∧
      r'.buf = utf8 hi ++ utf8 lo ∧ r'.buf ≠ utf8 (0x10000 + (hi - 0xD800) * 0x400 + (lo - 0xDC00)) := by
  have h2 := StrBody.unicode a' b' c' d' i' j' k' l' [] [] ho ha' hb' hc' hd' StrBody.nil
  rw [List.append_nil] at h2
  obtain ⟨r', h3, h4, h5, _⟩ := C42_escape_decodes o ho [] [] _ _ y StrBody.nil h2 a b c d i j k l ha hb hc hd
  refine ⟨r', h3, h4, by rw [h5, ehi, elo]; rfl, ?_⟩
  rw [h5, ← ehi, ← elo]
  intro h
  have := congrArg List.length h
  simp only [List.nil_append, List.length_append] at this
  rw [utf8_length hi (by omega) (by omega), utf8_length lo (by omega) (by omega)] at this
  unfold utf8 at this
  rw [if_neg (by omega), if_neg (by omega), if_neg (by omega)] at this
  simp at this

/-- non-vacuity: `"\u00e9"` and `"\u00E9"` -/
example : IsHex 48 0 ∧ IsHex 101 14 ∧ IsHex 69 14 ∧ IsHex 57 9 :=
  ⟨IsHex.digit 0 (by decide), IsHex.lower 4 (by decide), IsHex.upper 4 (by decide), IsHex.digit 9 (by decide)⟩
example : ∃ r', (Reader.open ROpts.default [34, 92, 117, 48, 48, 69, 57, 34]).nextToken
    = .ok (⟨.string, .buffer⟩, r') ∧ r'.buf = [0xC3, 0xA9] := by
  obtain ⟨⟨t, r'⟩, h1, h2⟩ := Res.run (x := (Reader.open ROpts.default [34, 92, 117, 48, 48, 69, 57, 34]).nextToken)
    (fun p => p.1 == ⟨.string, .buffer⟩ && p.2.buf == [0xC3, 0xA9]) (by decide +kernel)
  simp at h2
  exact ⟨r', by rw [h1, h2.1], h2.2⟩

/-! ### C44: skipping -/

/-- Skipping a document `x`, however it is written and whatever follows it, consumes exactly its text:
what is left is the text `y` that followed, and there is no error. -/
theorem C44_skip_exact (o : ROpts) (x : JTree) (s y : Bytes) (h : Reads o s x.toks y) (hy : y ≠ [])
    (n : Nat) (hn : x.toks.length < n) :
    ∃ r', skip n (Reader.open o s) = .ok r' ∧ r'.rest = y ∧ r'.err = none := by
  obtain ⟨n, rfl⟩ : ∃ m, n = m + 1 := ⟨n - 1, by omega⟩
  have hf : FedR o (x.toks ++ []) y (Reader.open o s) := by rw [List.append_nil]; exact FedR.open h
  obtain ⟨r', h1, h2⟩ := skip_fed n x _ [] (by omega) (fun _ _ => Or.inr hy) hf.fed
  exact ⟨r', h1, h2.rest, h2.err⟩

/-- After skipping the first document of a text, the reader delivers exactly the tokens after it, as if
the document had not been there. -/
theorem C44_rest_undisturbed (o : ROpts) (x : JTree) (s : Bytes) (ts : List Tok) (hts : ts ≠ [])
    (h : Spells o s (x.toks ++ ts)) (n : Nat) (hn : x.toks.length < n) :
    ∃ r', skip n (Reader.open o s) = .ok r' ∧
      ∃ m r'', readAll m r' = .ok (ts, r'') ∧ r''.err = none := by
  obtain ⟨n, rfl⟩ : ∃ m, n = m + 1 := ⟨n - 1, by omega⟩
  obtain ⟨y, h, ht⟩ := h
  obtain ⟨r', h1, h2⟩ := skip_fed n x _ ts (by omega) (fun _ _ => Or.inl hts) (FedR.open h).fed
  obtain ⟨r'', h3, h4⟩ := readAll_complete ts r' y h2 ht
  exact ⟨r', h1, _, r'', h3, h4⟩

/-- Skipping a document that ends the text, up to the last byte, consumes it and leaves nothing, if it is anything
but a number; numbers too, if they have an exponent that goes on behind its `e`. -/
theorem C44_last_skipped (o : ROpts) (x : JTree) (s : Bytes) (h : Reads o s x.toks []) (n : Nat)
    (hn : x.toks.length < n) (hx : ∀ k, x = .int k ∨ x = .float k → ¬ NoExp k) :
    ∃ r', skip n (Reader.open o s) = .ok r' ∧ r'.rest = [] ∧ r'.err = none ∧
      ∃ m r'', readAll m r' = .ok ([], r'') ∧ r''.err = none := by
  obtain ⟨n, rfl⟩ : ∃ m, n = m + 1 := ⟨n - 1, by omega⟩
  have fin : (∃ r', skip (n + 1) (Reader.open o s) = .ok r' ∧ FedR o [] [] r') →
      ∃ r', skip (n + 1) (Reader.open o s) = .ok r' ∧ r'.rest = [] ∧ r'.err = none ∧
        ∃ m r'', readAll m r' = .ok ([], r'') ∧ r''.err = none := by
    rintro ⟨r', h1, h2⟩
    exact ⟨r', h1, h2.rest, h2.err, _, readAll_complete [] r' [] h2 ⟨[], Sep.nil, Or.inl rfl⟩⟩
  have node : (∀ p, x.toks ≠ [p]) ∨ (∃ p, x.toks = [p] ∧
      (p.1.type = .null ∨ p.1.type = .bool ∨ p.1.type = .int ∨ p.1.type = .float ∨ p.1.type = .string) ∧
      ¬ ∃ k, p.2 = some k ∧ (p.1.type = .int ∨ p.1.type = .float) ∧ NoExp k) := by
    cases x with
    | null => exact Or.inr ⟨_, rfl, Or.inl rfl, by rintro ⟨_, h, _⟩; cases h⟩
    | bool b => exact Or.inr ⟨_, rfl, Or.inr (Or.inl rfl), by rintro ⟨_, h, _⟩; cases h⟩
    | int k => exact Or.inr ⟨_, rfl, Or.inr (Or.inr (Or.inl rfl)), by
        rintro ⟨k', h, _, h'⟩; injection h with h; exact hx k (Or.inl rfl) (h ▸ h')⟩
    | float k => exact Or.inr ⟨_, rfl, Or.inr (Or.inr (Or.inr (Or.inl rfl))), by
        rintro ⟨k', h, _, h'⟩; injection h with h; exact hx k (Or.inr rfl) (h ▸ h')⟩
    | str k => exact Or.inr ⟨_, rfl, Or.inr (Or.inr (Or.inr (Or.inr rfl))), by rintro ⟨_, _, h | h, _⟩ <;> cases h⟩
    | arr xs => exact Or.inl (by intro p hp; simp [JTree.toks] at hp)
    | obj xs => exact Or.inl (by intro p hp; simp [JTree.toks] at hp)
  apply fin
  rcases node with hp | ⟨p, e, hp, hk⟩
  · have hf : FedR o (x.toks ++ []) [] (Reader.open o s) := by rw [List.append_nil]; exact FedR.open h
    refine skip_fed n x _ [] (by omega) (fun h1 h2 => ?_) hf.fed
    exfalso
    cases x with
    | arr xs => exact h1 _ rfl
    | obj xs => exact h2 _ rfl
    | _ => exact hp _ rfl
  · obtain ⟨r', h1, ⟨h2, _⟩ | ⟨_, h2⟩⟩ := skip_end n p hp ⟨[], (At.open o s).soft⟩ (e ▸ h)
    · exact absurd h2 hk
    · exact ⟨r', h1, h2⟩

/-- Skipping a number without exponent that ends the text skips nothing: `skip` takes the end of the text that the
number ran into for a failure and returns, without an error. The number is still the next token. -/
theorem C44_last_number (o : ROpts) (k : Bytes) (x : JTree) (hx : x = .int k ∨ x = .float k) (hk : NoExp k) (s : Bytes)
    (h : Reads o s x.toks []) (n : Nat) (hn : 0 < n) :
    ∃ r', skip n (Reader.open o s) = .ok r' ∧ r'.err = none ∧
      ∃ m r'', readAll m r' = .ok (x.toks, r'') ∧ r''.err = none := by
  obtain ⟨n, rfl⟩ : ∃ m, n = m + 1 := ⟨n - 1, by omega⟩
  have key : ∀ p : Tok, p.2 = some k → (p.1.type = .int ∨ p.1.type = .float) → Reads o s [p] [] →
      ∃ r', skip (n + 1) (Reader.open o s) = .ok r' ∧ r'.err = none ∧
        ∃ m r'', readAll m r' = .ok ([p], r'') ∧ r''.err = none := by
    intro p e ht hr
    obtain ⟨r', h1, ⟨_, h2⟩ | ⟨h2, _⟩⟩ := skip_end n p (by
      rcases ht with ht | ht
      · exact Or.inr (Or.inr (Or.inl ht))
      · exact Or.inr (Or.inr (Or.inr (Or.inl ht)))) ⟨[], (At.open o s).soft⟩ hr
    · exact ⟨r', h1, h2.soft.err, 2, readAll_ahead hr h2⟩
    · exact absurd ⟨k, e, ht, hk⟩ h2
  rcases hx with rfl | rfl
  · exact key _ rfl (Or.inl rfl) h
  · exact key _ rfl (Or.inr rfl) h

/-- non-vacuity: `null`, `1e5` and `1.5` end the text -/
example : Reads ROpts.default [110, 117, 108, 108] JTree.null.toks [] ∧
    ¬ NoExp [49, 101, 53] ∧ NoExp [49, 46, 53] := by
  refine ⟨?_, by simp [NoExp], by simp [NoExp]⟩
  exact Reads.cons [] [110, 117, 108, 108] [] _ _ _ _ Sep.nil Lexeme.null (by rintro (h | h) <;> cases h) (Reads.nil _)
example : Reads ROpts.default [49, 46, 53] (JTree.float [49, 46, 53]).toks [] ∧
    Reads ROpts.default [49, 101, 53] (JTree.float [49, 101, 53]).toks [] := by
  have one : IntText [49] := ⟨49, [], rfl, Or.inr (by intro c hc; simp at hc; subst hc; decide), by intro c hc; simp at hc⟩
  have five : Digits [53] := by intro c hc; simp at hc; subst hc; decide
  constructor
  · exact Reads.cons [] [49, 46, 53] [] _ _ _ _ Sep.nil (Lexeme.float _ ⟨[49], [46, 53], [], rfl, one,
      Or.inr ⟨[53], rfl, five⟩, Or.inl rfl, Or.inl (by simp)⟩) (by intro _ c hc; simp at hc) (Reads.nil _)
  · exact Reads.cons [] [49, 101, 53] [] _ _ _ _ Sep.nil (Lexeme.float _ ⟨[49], [], [101, 53], rfl, one,
      Or.inl rfl, Or.inr ⟨101, [], [53], rfl, Or.inl rfl, Or.inl rfl, five⟩, Or.inr (by simp)⟩)
      (by intro _ c hc; simp at hc) (Reads.nil _)

/-- non-vacuity: `[ 1,null]` followed by `,` -/
example : Reads ROpts.default [91, 32, 49, 44, 110, 117, 108, 108, 93, 44]
    (JTree.arr [.int [49], .null]).toks [44] := by
  have f : ∀ (a s : Bytes) (t : TokType) v, t ≠ .int → t ≠ .float → Follows a ⟨t, v⟩ s := by
    intro a s t v h1 h2 h; rcases h with h | h
    · exact absurd h h1
    · exact absurd h h2
  refine Reads.cons [] [91] _ _ _ _ _ Sep.nil Lexeme.arrayStart (f _ _ _ _ (by decide) (by decide)) ?_
  refine Reads.cons [32] [49] [44, 110, 117, 108, 108, 93, 44] _ _ _ _ (Sep.ws 32 [] (by decide) Sep.nil)
    (Lexeme.int [49] ⟨49, [], rfl, Or.inr (by intro c hc; simp at hc; subst hc; decide), by intro c hc; simp at hc⟩) ?_ ?_
  · apply follows_of_not_num
    intro c hc
    simp at hc; subst hc; decide
  refine Reads.cons [] [44] _ _ _ _ _ Sep.nil Lexeme.separator (f _ _ _ _ (by decide) (by decide)) ?_
  refine Reads.cons [] [110, 117, 108, 108] _ _ _ _ _ Sep.nil Lexeme.null (f _ _ _ _ (by decide) (by decide)) ?_
  refine Reads.cons [] [93] _ _ _ _ _ Sep.nil Lexeme.arrayEnd (f _ _ _ _ (by decide) (by decide)) ?_
  exact Reads.nil _

/-! ### C47: separators -/

/-- Reading succeeds with the tokens `ts` exactly when the text is the lexemes of `ts` with separators
between them: this is the whole lexical grammar. -/
theorem C47_tokens_of_text (o : ROpts) (s : Bytes) (ts : List Tok) : Accepted o s ts ↔ Spells o s ts := by
  constructor
  · rintro ⟨n, r', h, he⟩
    exact readAll_sound n _ r' s [] ts (At.open o s).soft h he
  · rintro ⟨y, h, ht⟩
    obtain ⟨r', h1, h2⟩ := readAll_complete ts _ y (FedR.open h) ht
    exact ⟨_, r', h1, h2⟩

theorem readAll_step {n : Nat} {r r' : Reader} (h1 : r.tok.type = .noToken) (h2 : r'.tok.type = .noToken)
    (h : lexToken r = lexToken r') : readAll n r = readAll n r' := by
  cases n with
  | zero => rfl
  | succ n =>
    have : r.nextToken = r'.nextToken := by
      unfold Reader.nextToken
      rw [if_pos h1, if_pos h2, h]
    rw [readAll, readAll, this]

theorem spells_strip {o : ROpts} {w y : Bytes} {ts : List Tok} (hw : Sep o w) (h : Spells o (w ++ y) ts) :
    Spells o y ts := by
  have hat := At.open o (w ++ y)
  obtain ⟨r', h1, h2⟩ := nextChar_prefix hw hat
  obtain ⟨n, r'', h3, h4⟩ := (C47_tokens_of_text o _ ts).mpr h
  have e : lexToken (Reader.open o (w ++ y)) = lexToken r' := by
    unfold lexToken
    rw [if_pos hat.ok, if_pos h1.ok, h2]
  rw [readAll_step rfl (by rw [h1.tok]) e] at h3
  exact readAll_sound n r' r'' y [] ts h1.soft h3 h4

/-- Inserting separators at a place between tokens (`x` before it consists of whole tokens) changes
neither the tokens nor whether reading succeeds. -/
theorem C47_insertion (o : ROpts) (x y w : Bytes) (ts0 : List Tok) (hb : Reads o (x ++ y) ts0 y)
    (hw : Sep o w) (ts : List Tok) : Accepted o (x ++ y) ts ↔ Accepted o (x ++ w ++ y) ts := by
  rw [C47_tokens_of_text, C47_tokens_of_text, List.append_assoc]
  have hi := reads_insert hw hb
  constructor
  · intro h
    obtain ⟨T2, rfl, h2⟩ := spells_unique h hb
    obtain ⟨z, h3, h4⟩ := spells_sep hw h2
    exact ⟨z, reads_append hi h3, h4⟩
  · intro h
    obtain ⟨T2, rfl, h2⟩ := spells_unique h hi
    obtain ⟨z, h3, h4⟩ := spells_strip hw h2
    exact ⟨z, reads_append hb h3, h4⟩

theorem takeToks_fed {o : ROpts} {y : Bytes} : ∀ (ts : List Tok) (r : Reader), FedR o ts y r →
    ∃ r', takeToks ts.length r = .ok (ts, r') ∧ Ready o y r' := by
  intro ts r hf
  obtain ⟨s, ⟨b, h1⟩, h2⟩ := hf
  obtain ⟨k, hk⟩ := reads_readsL h2
  obtain ⟨r', b', h3, h4, _⟩ := takeToks_readsL ts s k r b hk h1
  exact ⟨r', h3, b', h4⟩

/-- With comments off, a comment between tokens is reported as an error: after the tokens before it, the
next call reports it, and the text as a whole is not accepted. -/
theorem C47_comment_refused (o : ROpts) (ho : o.allowComments = false) (s w y : Bytes) (ts : List Tok)
    (hw : Sep o w) (h : Reads o s ts (w ++ 47 :: 47 :: y)) :
    (∃ r r' e, takeToks ts.length (Reader.open o s) = .ok (ts, r) ∧ r.err = none ∧
      r.nextToken = .ok (⟨.eos, .none⟩, r') ∧ r'.err = some e ∧ e.msg = .comments) ∧
    ∀ T, ¬ Accepted o s T := by
  obtain ⟨r, h1, b, h2⟩ := takeToks_fed ts _ (FedR.open h)
  have hat := h2.at (by simp)
  obtain ⟨r1, h3, h4⟩ := nextChar_prefix hw hat
  have hp := h3.pop
  have hlex : ∃ r' e, lexToken r = (⟨.eos, .none⟩, r') ∧ r'.err = some e ∧ e.msg = .comments ∧ r'.ub = false := by
    unfold lexToken
    rw [if_pos hat.ok, h4]
    have hck : ∃ e, r1.pop.2.checkComments.err = some e ∧ e.msg = .comments := by
      unfold Reader.checkComments Reader.errorIf
      rw [hp.2.opts, ho]
      simp only [Bool.not_false, if_true]
      unfold Reader.error
      rw [hp.2.err]
      exact ⟨_, rfl, rfl⟩
    have hnk : r1.pop.2.checkComments.ok = false := by
      obtain ⟨e, he, _⟩ := hck
      exact Reader.not_ok_of_err he
    have hn : nextChar r1 = (0, r1.pop.2.checkComments) := by
      rw [nextChar.eq_def, dif_pos h3.ok]
      simp only [hp.1]
      have e : r1.pop.2.countNewline 47 = r1.pop.2 := rfl
      rw [if_neg (by decide), if_pos trivial, e, hp.2.peek]
      simp only [if_true]
      rw [skipComment_not_ok hnk, nextChar_not_ok hnk]
    rw [hn]
    simp only
    rw [if_neg (by rw [hnk]; simp)]
    obtain ⟨e, he, hm⟩ := hck
    exact ⟨_, e, rfl, he, hm, by rw [checkComments_ub, hp.2.ub]⟩
  obtain ⟨r', e, g1, g2, g3, g4⟩ := hlex
  refine ⟨⟨r, r', e, h1, h2.err, ?_, g2, g3⟩, ?_⟩
  · unfold Reader.nextToken
    rw [if_pos (by rw [h2.tok]), g1]
    unfold Reader.checked
    rw [g4]; rfl
  · intro T hT
    rw [C47_tokens_of_text] at hT
    obtain ⟨T2, _, hS⟩ := spells_unique hT h
    have hS := spells_strip hw hS
    obtain ⟨z, g5, g6⟩ := hS
    have hsl : ∀ u : Bytes, Sep o u → u.head? = some 47 → False := by
      intro u hu hh
      cases hu with
      | nil => cases hh
      | ws c u hc _ => simp at hh; subst hh; revert hc; decide
      | comment body u hc _ _ => rw [ho] at hc; cases hc
    cases T2 with
    | nil =>
      rw [← reads_nil_inv g5] at g6
      obtain ⟨u, hu, g7⟩ := g6
      rcases g7 with g7 | ⟨hc, _⟩
      · exact hsl u hu (by rw [← g7]; rfl)
      · rw [ho] at hc; cases hc
    | cons p T2 =>
      obtain ⟨t, v⟩ := p
      obtain ⟨u, a, s', g7, g8, g9, _, _⟩ := reads_cons_inv g5
      obtain ⟨c, a', rfl, g10, g11⟩ := lexeme_head g9
      cases u with
      | nil => simp at g7; exact g11 g7.1.symm
      | cons d u => simp at g7; exact hsl _ g8 (by rw [← g7.1]; rfl)

/-- The reader as it comes, with the options of `Reader::Default`, refuses comments. -/
theorem C47_default_refused (s w y : Bytes) (ts : List Tok) (hw : Sep ROpts.default w)
    (h : Reads ROpts.default s ts (w ++ 47 :: 47 :: y)) :
    (∃ r r' e, takeToks ts.length (Reader.open ROpts.default s) = .ok (ts, r) ∧ r.err = none ∧
      r.nextToken = .ok (⟨.eos, .none⟩, r') ∧ r'.err = some e ∧ e.msg = .comments) ∧
    ∀ T, ¬ Accepted ROpts.default s T :=
  C47_comment_refused ROpts.default rfl s w y ts hw h

/-- non-vacuity: `[//` with the default options. -/
example : Reads ROpts.default ([91] ++ [47, 47, 10, 49, 93]) [Tok.lbrack] ([] ++ 47 :: 47 :: [10, 49, 93]) :=
  Reads.cons [] [91] [47, 47, 10, 49, 93] _ _ _ [] Sep.nil Lexeme.arrayStart
    (by intro h; rcases h with h | h <;> cases h) (Reads.nil _)

/-- non-vacuity: in `[1]`, the place after `[` lies between tokens; a comment may go there. -/
example : Reads ⟨true, true, true⟩ ([91] ++ [49, 93]) [Tok.lbrack] [49, 93] :=
  Reads.cons [] [91] [49, 93] [49, 93] _ _ [] Sep.nil Lexeme.arrayStart
    (by intro h; rcases h with h | h <;> cases h) (Reads.nil _)
example : Sep ⟨true, true, true⟩ [32, 47, 47, 33, 10] :=
  Sep.ws 32 _ (by decide) (Sep.comment [33] [] rfl (by decide) Sep.nil)
/-- ... and a concrete run with the comment inserted -/
example : ∃ r', readAll 9 (Reader.open ⟨true, true, true⟩ [91, 32, 47, 47, 33, 10, 49, 93]) =
    .ok ([Tok.lbrack, Tok.int [49], Tok.rbrack], r') ∧ r'.err = none := by
  obtain ⟨⟨ts, r'⟩, h1, h2⟩ := Res.run (x := readAll 9 (Reader.open ⟨true, true, true⟩ [91, 32, 47, 47, 33, 10, 49, 93]))
    (fun p => p.1 == [Tok.lbrack, Tok.int [49], Tok.rbrack] && p.2.err == none) (by decide +kernel)
  simp at h2
  exact ⟨r', by rw [h1, h2.1], h2.2⟩

/-! ### C49: errors -/

/-- Once an error is recorded no sequence of calls changes it. -/
theorem C49_first_error_kept (l : List ROp) (r r' : Reader) (e : JError) (he : r.err = some e)
    (h : runOps l r = .ok r') : r'.err = some e := by
  induction l generalizing r with
  | nil => injection h with h; rw [← h]; exact he
  | cons op l ih =>
    have hne : r.err ≠ none := by rw [he]; simp
    cases op with
    | peek =>
      rw [runOps] at h
      cases hp : r.peekToken with
      | error e => rw [hp] at h; cases h
      | ok p =>
        rw [hp, okb] at h
        have := (((peekToken_fine r).2 p hp).1.stop hne).1
        exact ih p.2 (by rw [← he]; exact this) h
    | next =>
      rw [runOps] at h
      cases hp : r.nextToken with
      | error e => rw [hp] at h; cases h
      | ok p =>
        rw [hp, okb] at h
        have := (((nextToken_fine r).2 p hp).1.stop hne).1
        exact ih p.2 (by rw [← he]; exact this) h
    | expect t =>
      rw [runOps] at h
      cases hp : r.expectToken t with
      | error e => rw [hp] at h; cases h
      | ok p =>
        rw [hp, okb] at h
        have := (((expectToken_fine r t).2 p hp).1.stop hne).1
        exact ih p.2 (by rw [← he]; exact this) h
    | error m =>
      rw [runOps] at h
      exact ih _ (by rw [Reader.error_of_err he]; exact he) h

/-- An error stops the reader from consuming anything more. -/
theorem C49_nothing_read_after_error (r r' : Reader) (t : Token) (he : r.err ≠ none)
    (h : r.nextToken = .ok (t, r')) : r'.rest = r.rest :=
  (((nextToken_fine r).2 _ h).1.stop he).2

/-- Lines: read the tokens `ts`, which take up the text up to `w ++ x`, with `k` newlines outside
comments before it; let `w` be all the separators there, with `j` newlines outside comments.  Then after
the next call - whether it delivers a token, the end of the stream or an error - the line is `1 + k + j`,
and so is the line of the error if there is one. -/
theorem C49_line_exact (o : ROpts) (s w x : Bytes) (ts : List Tok) (k j : Nat)
    (h : ReadsL o s ts (w ++ x) k) (hw : Breaks o w j) (hx : NoSep o x) (ts' : List Tok) (r' : Reader)
    (hr : takeToks (ts.length + 1) (Reader.open o s) = .ok (ts', r')) :
    r'.line = 1 + k + j ∧ ∀ e, r'.err = some e → e.line = 1 + k + j := by
  obtain ⟨r, b, h1, h2, h3⟩ := takeToks_readsL ts s k _ [] h (At.open o s).soft
  rw [takeToks_add, h1, okb] at hr
  have h4 := lexToken_line hw hx h2
  have h5 : r.line = 1 + k := h3
  rw [h5] at h4
  rw [takeToks] at hr
  simp only at hr
  cases hn : r.nextToken with
  | error e => rw [hn] at hr; cases hr
  | ok p =>
    rw [hn, okb] at hr
    simp only [takeToks] at hr
    rw [okb, okb] at hr
    injection hr with hr
    injection hr with _ hr
    rw [← hr]
    unfold Reader.nextToken at hn
    rw [if_pos (by rw [h2.tok])] at hn
    unfold Reader.checked at hn
    split at hn
    · cases hn
    · injection hn with hn
      rw [← hn]
      exact h4

/-- Every accepted beginning of a text has such a line count, so the theorem above applies to it. -/
theorem C49_line_defined (o : ROpts) (s : Bytes) (ts : List Tok) (y : Bytes) (h : Reads o s ts y) :
    ∃ k, ReadsL o s ts y k := reads_readsL h

/-- Columns: read the tokens `ts`, which take up the text up to `w ++ x`; let `w` be all the separators
there and `m'` the number of bytes between the last line break and the end of `w`.  Then after the next
call the column is one more than the number of bytes consumed since that line break, `m'` plus the bytes `u`
consumed of `x`; running into the end of the text counts as one byte.  An error carries this column. -/
theorem C49_column_exact (o : ROpts) (s w x : Bytes) (ts : List Tok) (m m' : Nat)
    (h : ReadsC o s ts (w ++ x) 0 m) (hw : After o w m m') (hx : NoSep o x) (ts' : List Tok) (r' : Reader)
    (hr : takeToks (ts.length + 1) (Reader.open o s) = .ok (ts', r')) :
    (∃ u n, x = u ++ r'.rest ∧ r'.pos = 1 + m' + u.length + n ∧ n ≤ 1 ∧ (r'.fail = false → n = 0)) ∧
    ∀ e, r'.err = some e → e.pos = r'.pos := by
  obtain ⟨r, b, n, h1, h2, h3, h6, h7⟩ := takeToks_readsC ts s 0 m 0 _ [] h (At.open o s).soft rfl
    (by omega) (fun _ => rfl)
  rw [takeToks_add, h1, okb] at hr
  have hr' : (lexToken r).2 = r' := by
    rw [takeToks] at hr
    simp only at hr
    cases hn : r.nextToken with
    | error e => rw [hn] at hr; cases hr
    | ok p =>
      rw [hn, okb] at hr
      simp only [takeToks] at hr
      rw [okb, okb] at hr
      injection hr with hr
      injection hr with _ hr
      unfold Reader.nextToken at hn
      rw [if_pos (by rw [h2.tok])] at hn
      unfold Reader.checked at hn
      split at hn
      · cases hn
      · injection hn with hn
        rw [← hr, ← hn]
  cases hfl : r.fail with
  | false =>
    rw [← hr']
    exact lexToken_col hw hx h2 (by rw [h3, h7 hfl]; rfl)
  | true =>
    have hwx : w ++ x = [] := by
      apply Classical.byContradiction
      intro hne
      rw [(h2.bits hne).2] at hfl; cases hfl
    simp only [List.append_eq_nil_iff] at hwx
    obtain ⟨rfl, rfl⟩ := hwx
    cases hw
    have : lexToken r = (⟨.eos, .none⟩, r) := by
      unfold lexToken; rw [if_neg]; rw [not_ok_of_fail hfl]; simp
    rw [this] at hr'
    subst hr'
    refine ⟨⟨[], n, by rw [h2.rest]; rfl, by simpa using h3, h6, h7⟩, fun e he => ?_⟩
    rw [h2.err] at he; cases he

/-- Every accepted beginning of a text, and every run of separators, has such a column. -/
theorem C49_column_defined (o : ROpts) (s w x : Bytes) (ts : List Tok) (h : Reads o s ts (w ++ x))
    (hw : Sep o w) : ∃ m m', ReadsC o s ts (w ++ x) 0 m ∧ After o w m m' := by
  obtain ⟨m, h1⟩ := reads_readsC h 0
  obtain ⟨m', h2⟩ := sep_after hw m
  exact ⟨m, m', h1, h2⟩

/-- An error raised by the caller carries the current line. -/
theorem C49_error_at_current_line (r : Reader) (m : Msg) (h : r.err = none) :
    (r.error m).err = some ⟨r.line, r.pos, m⟩ := by
  unfold Reader.error; rw [h]

/-- `Reader::expectToken`: the next token if it is of the type asked for; otherwise a token of type `EOS`, whatever the
text has, and the reader is in error: about this token, unless there was an error before. Formatting the message, which
includes the text of the token, is undefined if it has more than 1024 bytes. -/
theorem C49_expect (r r0 : Reader) (t : Token) (x : TokType) (hn : r.nextToken = .ok (t, r0)) :
    (t.type = x → r.expectToken x = .ok (t, r0)) ∧
    (t.type ≠ x → r0.err ≠ none ∨ (Msg.unexpectedToken t.type (t.text r0) x).text.length ≤ 1024 →
      ∃ r', r.expectToken x = .ok (⟨.eos, .none⟩, r') ∧ r'.err ≠ none ∧
        (r0.err = none → r'.err = some ⟨r0.line, r0.pos, .unexpectedToken t.type (t.text r0) x⟩) ∧
        (∀ e, r0.err = some e → r'.err = some e)) ∧
    (t.type ≠ x → r0.err = none → 1024 < (Msg.unexpectedToken t.type (t.text r0) x).text.length →
      r.expectToken x = .error .ub) := by
  have hx : r.expectToken x = (r0.mayAssert t x >>= fun _ =>
      .ok (if (r0.assertToken t x).1 then t else ⟨.eos, .none⟩, (r0.assertToken t x).2)) := by
    unfold Reader.expectToken
    rw [hn]; rfl
  rw [hx]
  refine ⟨?_, ?_, ?_⟩
  · intro h
    rw [mayAssert_eq _ h]
    show Except.ok _ = _
    unfold Reader.assertToken
    simp [h]
  · intro h hfit
    have hm : r0.mayAssert t x = .ok () := by
      unfold Reader.mayAssert
      rw [if_neg h]
      rcases hfit with he | hl
      · exact format_err _ he
      · exact format_fits _ hl
    rw [hm]
    unfold Reader.assertToken
    rw [if_neg h]
    exact ⟨_, rfl, Reader.error_err _ _, fun h0 => C49_error_at_current_line r0 _ h0, fun e he => by rw [Reader.error_of_err he, he]⟩
  · intro h he hl
    unfold Reader.mayAssert
    rw [if_neg h, format_long he hl]
    rfl

/-- non-vacuity: on `7` a string is expected, and an integer -/
example : ∃ t r0, (Reader.open ROpts.default [55]).nextToken = .ok (t, r0) ∧ t.type = .int ∧ t.type ≠ .string ∧ r0.err = none := by
  obtain ⟨⟨t, r0⟩, h1, h2⟩ := Res.run (x := (Reader.open ROpts.default [55]).nextToken)
    (fun p => p.1.type == .int && p.2.err.isNone) (by decide +kernel)
  simp at h2
  exact ⟨t, r0, h1, h2.1, by rw [h2.1]; simp, h2.2⟩

/-- The newline that ends a comment is not counted: the error in the second line of `// c⏎@` is reported
in line 1. -/
theorem C49_comment_newline_not_counted :
    ∃ t r' e, (Reader.open ⟨true, true, true⟩ [47, 47, 32, 99, 10, 64]).nextToken = .ok (t, r') ∧
      r'.err = some e ∧ e.msg = .unexpectedChar 64 ∧ e.line = 1 := by
  obtain ⟨⟨t, r'⟩, h1, h2⟩ := Res.run (x := (Reader.open ⟨true, true, true⟩ [47, 47, 32, 99, 10, 64]).nextToken)
    (fun p => p.2.err.any (fun e => e.msg == .unexpectedChar 64 && e.line == 1)) (by decide +kernel)
  cases he : r'.err with
  | none => simp [he] at h2
  | some e =>
    simp [he] at h2
    exact ⟨t, r', e, h1, he, h2.1, h2.2⟩

/-- non-vacuity: `[⏎@` -/
example : ReadsL ROpts.default ([91] ++ ([10] ++ [64])) [Tok.lbrack] ([10] ++ [64]) 0 :=
  ReadsL.cons [] [91] _ _ _ _ [] 0 0 Breaks.nil Lexeme.arrayStart
    (by intro h; rcases h with h | h <;> cases h) (ReadsL.nil _)
example : Breaks ROpts.default [10] 1 := Breaks.newline [] 0 Breaks.nil
example : ReadsC ROpts.default ([91] ++ ([10] ++ [64])) [Tok.lbrack] ([10] ++ [64]) 0 1 ∧
    After ROpts.default [10] 1 0 ∧ NoSep ROpts.default [64] :=
  ⟨ReadsC.cons [] [91] _ _ _ _ [] 0 0 1 (After.nil 0) Lexeme.arrayStart
    (by intro h; rcases h with h | h <;> cases h) (ReadsC.nil _ _), After.newline [] 1 0 (After.nil 0), by
    intro w x' e hw
    cases hw with
    | nil => rfl
    | ws c w hc _ => simp at e; rw [← e.1] at hc; exact absurd hc (by decide)
    | comment body w ho => cases ho⟩
example : ∃ ts' r' e, takeToks 2 (Reader.open ROpts.default [91, 10, 64]) = .ok (ts', r') ∧ r'.err = some e ∧ e.pos = 2 := by
  obtain ⟨⟨ts, r'⟩, h1, h2⟩ := Res.run (x := takeToks 2 (Reader.open ROpts.default [91, 10, 64]))
    (fun p => p.2.err.any (fun e => e.pos == 2)) (by decide +kernel)
  cases he : r'.err with
  | none => simp [he] at h2
  | some e =>
    simp [he] at h2
    exact ⟨ts, r', e, h1, he, h2⟩
example : ∃ ts' r' e, takeToks 2 (Reader.open ROpts.default [91, 10, 64]) = .ok (ts', r') ∧ r'.err = some e ∧ e.line = 2 := by
  obtain ⟨⟨ts, r'⟩, h1, h2⟩ := Res.run (x := takeToks 2 (Reader.open ROpts.default [91, 10, 64]))
    (fun p => p.2.err.any (fun e => e.line == 2)) (by decide +kernel)
  cases he : r'.err with
  | none => simp [he] at h2
  | some e =>
    simp [he] at h2
    exact ⟨ts, r', e, h1, he, h2⟩

end Reflect.Json
