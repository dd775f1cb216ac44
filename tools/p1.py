s=open('/verif/lean/Verif/Spec/Print.lean').read()
s=s.replace("does not end in ` const`, and has","does not end in ` const` or `,`, and has")
s=s.replace("""  noConst : ∀ a, s ≠ a ++ " const".toList
""","""  noConst : ∀ a, s ≠ a ++ " const".toList
  noComma : s.getLast? ≠ some ','
""")
open('/verif/lean/Verif/Spec/Print.lean','w').write(s)
f='/verif/lean/Verif/Lemmas/Print.lean'
s=open(f).read()
i=s.index("theorem argText_noList")
s=s[:i]+'''/-- a `, ` in a text in two parts is in one of them or across -/
theorem noList_append {i t : Name} (hi : NoList i) (ht : NoList t) (hl : t.head? = some ' ' → i.getLast? ≠ some ',') :
    NoList (i ++ t) := by
  intro x y e
  rcases List.append_eq_append_iff.1 e with ⟨u, h1, h2⟩ | ⟨u, h1, h2⟩
  · exact ht u y h2
  · cases u with
    | nil => simp only [List.nil_append] at h2
             exact ht [] y h2.symm
    | cons c u =>
      simp only [List.cons_append, List.cons.injEq] at h2
      obtain ⟨rfl, h2⟩ := h2
      cases u with
      | nil =>
        simp only [List.nil_append] at h2
        exact hl (by rw [← h2]; rfl) (by rw [h1]; simp)
      | cons d u =>
        simp only [List.cons_append, List.cons.injEq] at h2
        obtain ⟨rfl, h2⟩ := h2
        exact hi x u h1

theorem noList_of_noComma {t : Name} (h : ',' ∉ t) : NoList t := by
  intro a b e
  exact h (by rw [e]; simp)

/-- what follows the name of a type -/
def suffixT (a : ArgView) : Name :=
  (if a.isConst then " const".toList else []) ++
    ((if a.ref = .lvalue then "&".toList else []) ++ (if a.ref = .rvalue then "&&".toList else []))

theorem argText_suffix (a : ArgView) : argText a = a.id ++ suffixT a := by
  simp only [argText, suffixT, List.append_assoc]

theorem suffix_chars (a : ArgView) : ∀ c ∈ suffixT a, c ≠ ',' ∧ c ≠ '(' ∧ c ≠ '\\n' ∧ c ≠ '[' := by
  obtain ⟨i, k, r⟩ := a
  cases k <;> cases r <;> decide

theorem argText_noList {a : ArgView} (h : TypeName a.id) : NoList (argText a) := by
  rw [argText_suffix]
  exact noList_append h.noList (noList_of_noComma fun hm => (suffix_chars a _ hm).1 rfl) fun _ => h.noComma

theorem argText_last {a : ArgView} (h : TypeName a.id) : (argText a).getLast? ≠ some ',' := by
  rw [argText_suffix, List.getLast?_append]
  intro e
  cases hs : (suffixT a).getLast? with
  | none => rw [hs] at e; exact h.noComma (by simpa using e)
  | some c =>
    rw [hs] at e
    simp only [Option.or_some, Option.some.injEq] at e
    subst e
    exact (suffix_chars a _ (List.mem_of_getLast? hs)).1 rfl

theorem argText_ne {a : ArgView} (h : TypeName a.id) : argText a ≠ [] := by
  rw [argText_suffix]
  intro e
  exact h.nonempty (List.append_eq_nil_iff.1 e).1

/-- what precedes the first `, ` -/
theorem list_inj : ∀ {x y r s : Name}, NoList x → NoList y → x.getLast? ≠ some ',' → y.getLast? ≠ some ',' →
    (r = [] ∨ ∃ r', r = ',' :: ' ' :: r') → (s = [] ∨ ∃ s', s = ',' :: ' ' :: s') →
    x ++ r = y ++ s → x = y ∧ r = s := by
  have one : ∀ {x y r s : Name}, NoList y → y.getLast? ≠ some ',' →
      (r = [] ∨ ∃ r', r = ',' :: ' ' :: r') → ∀ u, y = x ++ u → r = u ++ s → u = [] := by
    intro x y r s hy hl hr u h1 h2
    cases u with
    | nil => rfl
    | cons c u =>
      rcases hr with rfl | ⟨r', rfl⟩
      · simp at h2
      · simp only [List.cons_append, List.cons.injEq] at h2
        obtain ⟨rfl, h2⟩ := h2
        cases u with
        | nil => exact absurd (by rw [h1]; simp) hl
        | cons d u =>
          simp only [List.cons_append, List.cons.injEq] at h2
          obtain ⟨rfl, h2⟩ := h2
          exact absurd h1 (hy x u)
  intro x y r s hx hy hlx hly hr hs h
  rcases List.append_eq_append_iff.1 h with ⟨u, h1, h2⟩ | ⟨u, h1, h2⟩
  · have := one hy hly hr u h1 h2
    subst this
    exact ⟨by simpa using h1.symm, by simpa using h2⟩
  · have := one hx hlx hs u h1 h2
    subst this
    exact ⟨by simpa using h1, by simpa using h2.symm⟩

theorem restT_head (as : List ArgView) : restT as = [] ∨ ∃ r, restT as = ',' :: ' ' :: r := by
  cases as with
  | nil => exact .inl rfl
  | cons a as => exact .inr ⟨_, rfl⟩

theorem restT_inj : ∀ {as bs : List ArgView}, (∀ a ∈ as, TypeName a.id) → (∀ a ∈ bs, TypeName a.id) →
    restT as = restT bs → as = bs := by
  intro as
  induction as with
  | nil =>
    intro bs _ _ h
    cases bs with
    | nil => rfl
    | cons b bs => simp [restT] at h
  | cons a as ih =>
    intro bs ha hb h
    cases bs with
    | nil => simp [restT] at h
    | cons b bs =>
      simp only [restT, List.append_assoc] at h
      have h := List.append_cancel_left h
      have ta := ha a (by simp)
      have tb := hb b (by simp)
      obtain ⟨h1, h2⟩ := list_inj (argText_noList ta) (argText_noList tb) (argText_last ta) (argText_last tb)
        (restT_head as) (restT_head bs) h
      rw [argText_inj ta tb h1, ih (fun x hx => ha x (by simp [hx])) (fun x hx => hb x (by simp [hx])) h2]

theorem argsT_inj {as bs : List ArgView} (ha : ∀ a ∈ as, TypeName a.id) (hb : ∀ a ∈ bs, TypeName a.id)
    (h : argsT as = argsT bs) : as = bs := by
  cases as with
  | nil =>
    cases bs with
    | nil => rfl
    | cons b bs =>
      simp only [argsT] at h
      exact absurd (List.append_eq_nil_iff.1 h.symm).1 (argText_ne (hb b (by simp)))
  | cons a as =>
    cases bs with
    | nil =>
      simp only [argsT] at h
      exact absurd (List.append_eq_nil_iff.1 h).1 (argText_ne (ha a (by simp)))
    | cons b bs =>
      apply restT_inj ha hb
      simp only [argsT] at h
      simp only [restT, List.append_assoc, h]

theorem argText_chars {a : ArgView} (h : TypeName a.id) : ∀ c ∈ argText a, c ≠ '\\n' ∧ c ≠ '(' := by
  intro c hc
  rw [argText_suffix, List.mem_append] at hc
  rcases hc with hc | hc
  · exact ⟨(h.chars c hc).1, (h.chars c hc).2.2.1⟩
  · exact ⟨(suffix_chars a c hc).2.2.1, (suffix_chars a c hc).2.1⟩

theorem sigT_inj {s t : SigView} (hs : s.Named) (ht : t.Named) (h : sigT s = sigT t) : s = t := by
  obtain ⟨r, as⟩ := s
  obtain ⟨r', as'⟩ := t
  unfold sigT at h
  simp only [show "(".toList = ['('] from rfl, show ")".toList = [')'] from rfl, List.append_assoc,
    List.cons_append, List.nil_append] at h
  obtain ⟨h1, h2⟩ := first_inj (fun hm => (argText_chars hs.1 _ hm).2 rfl)
    (fun hm => (argText_chars ht.1 _ hm).2 rfl) h
  rw [argText_inj hs.1 ht.1 h1, argsT_inj hs.2 ht.2 (List.append_cancel_right h2)]

theorem restT_line : ∀ {as : List ArgView}, (∀ a ∈ as, TypeName a.id) → '\\n' ∉ restT as := by
  intro as
  induction as with
  | nil => intro _; decide
  | cons a as ih =>
    intro ha hm
    simp only [restT, List.mem_append] at hm
    rcases hm with (hm | hm) | hm
    · revert hm; decide
    · exact (argText_chars (ha a (by simp)) _ hm).1 rfl
    · exact ih (fun x hx => ha x (by simp [hx])) hm

theorem sigT_line {s : SigView} (hs : s.Named) : '\\n' ∉ sigT s := by
  intro hm
  simp only [sigT, List.mem_append] at hm
  rcases hm with ((hm | hm) | hm) | hm
  · exact (argText_chars hs.1 _ hm).1 rfl
  · revert hm; decide
  · cases has : s.args with
    | nil => rw [has] at hm; revert hm; decide
    | cons a as =>
      rw [has] at hm
      simp only [argsT, List.mem_append] at hm
      rcases hm with hm | hm
      · exact (argText_chars (hs.2 a (by simp [has])) _ hm).1 rfl
      · exact restT_line (fun x hx => hs.2 x (by simp [has, hx])) hm
  · revert hm; decide

end Reflect.Print
'''
open(f,'w').write(s)
