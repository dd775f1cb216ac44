import Verif.Spec.Print
/-
  Lemmas for reading printed text back.
-/
namespace Reflect.Print
open Reflect.Spec

/-! ### lists -/

/-- words each ended by `c`, which none of them contains, can be told apart -/
theorem ended_inj {c : Char} : ∀ {a b : List Name}, (∀ x ∈ a, c ∉ x) → (∀ x ∈ b, c ∉ x) →
    a.flatMap (fun x => x ++ [c]) = b.flatMap (fun x => x ++ [c]) → a = b := by
  intro a
  induction a with
  | nil =>
    intro b _ _ h
    cases b with
    | nil => rfl
    | cons y ys => simp at h
  | cons x xs ih =>
    intro b ha hb h
    cases b with
    | nil => simp at h
    | cons y ys =>
      simp only [List.flatMap_cons, List.append_assoc, List.cons_append, List.nil_append] at h
      have hx := ha x (by simp)
      have hy := hb y (by simp)
      have key : ∀ (x y r s : Name), c ∉ x → c ∉ y → x ++ c :: r = y ++ c :: s → x = y ∧ r = s := by
        intro x
        induction x with
        | nil =>
          intro y r s _ hy h
          cases y with
          | nil => simpa using h
          | cons d ds => simp only [List.nil_append, List.cons_append, List.cons.injEq] at h
                         exact absurd (by rw [h.1]; simp) hy
        | cons d ds ih =>
          intro y r s hx hy h
          cases y with
          | nil => simp only [List.nil_append, List.cons_append, List.cons.injEq] at h
                   exact absurd (by rw [h.1]; simp) hx
          | cons e es =>
            simp only [List.cons_append, List.cons.injEq] at h
            obtain ⟨h1, h2⟩ := ih es r s (fun h => hx (by simp [h])) (fun h => hy (by simp [h])) h.2
            exact ⟨by rw [h.1, h1], h2⟩
      obtain ⟨h1, h2⟩ := key x y _ _ hx hy h
      rw [h1, ih (fun z hz => ha z (by simp [hz])) (fun z hz => hb z (by simp [hz])) h2]

/-- what precedes the first `c` -/
theorem first_inj {α : Type} {c : α} : ∀ {x y r s : List α}, c ∉ x → c ∉ y → x ++ c :: r = y ++ c :: s →
    x = y ∧ r = s := by
  intro x
  induction x with
  | nil =>
    intro y r s _ hy h
    cases y with
    | nil => simpa using h
    | cons d ds => simp only [List.nil_append, List.cons_append, List.cons.injEq] at h
                   exact absurd (by rw [h.1]; simp) hy
  | cons d ds ih =>
    intro y r s hx hy h
    cases y with
    | nil => simp only [List.nil_append, List.cons_append, List.cons.injEq] at h
             exact absurd (by rw [h.1]; simp) hx
    | cons e es =>
      simp only [List.cons_append, List.cons.injEq] at h
      obtain ⟨h1, h2⟩ := ih (fun h => hx (by simp [h])) (fun h => hy (by simp [h])) h.2
      exact ⟨by rw [h.1, h1], h2⟩

/-- what precedes the last `c` -/
theorem last_inj {α : Type} {c : α} {x y r s : List α} (hr : c ∉ r) (hs : c ∉ s)
    (h : x ++ c :: r = y ++ c :: s) : x = y ∧ r = s := by
  have := congrArg List.reverse h
  simp only [List.reverse_append, List.reverse_cons, List.append_assoc, List.cons_append, List.nil_append] at this
  obtain ⟨h1, h2⟩ := first_inj (by simpa using hr) (by simpa using hs) this
  exact ⟨List.reverse_inj.1 h2, List.reverse_inj.1 h1⟩

/-- a part all of whose elements satisfy `q`, before a rest that does not begin with such -/
theorem while_inj {α : Type} {q : α → Prop} : ∀ {x y r s : List α}, (∀ a ∈ x, q a) → (∀ a ∈ y, q a) →
    (∀ a, r.head? = some a → ¬ q a) → (∀ a, s.head? = some a → ¬ q a) → x ++ r = y ++ s → x = y ∧ r = s := by
  intro x
  induction x with
  | nil =>
    intro y r s _ hy hr _ h
    cases y with
    | nil => exact ⟨rfl, h⟩
    | cons d ds =>
      simp only [List.nil_append] at h
      exact absurd (hy d (by simp)) (hr d (by rw [h]; rfl))
  | cons d ds ih =>
    intro y r s hx hy hr hs h
    cases y with
    | nil =>
      simp only [List.nil_append] at h
      exact absurd (hx d (by simp)) (hs d (by rw [← h]; rfl))
    | cons e es =>
      simp only [List.cons_append, List.cons.injEq] at h
      obtain ⟨h1, h2⟩ := ih (fun a ha => hx a (by simp [ha])) (fun a ha => hy a (by simp [ha])) hr hs h.2
      exact ⟨by rw [h.1, h1], h2⟩

/-- groups that each begin with an element satisfying `q`, followed by others that do not -/
theorem groups_inj {α : Type} {q : α → Prop} : ∀ {x y : List (α × List α)},
    (∀ g ∈ x, q g.1 ∧ ∀ a ∈ g.2, ¬ q a) → (∀ g ∈ y, q g.1 ∧ ∀ a ∈ g.2, ¬ q a) →
    x.flatMap (fun g => g.1 :: g.2) = y.flatMap (fun g => g.1 :: g.2) → x = y := by
  intro x
  induction x with
  | nil =>
    intro y _ _ h
    cases y with
    | nil => rfl
    | cons g gs => simp at h
  | cons g gs ih =>
    intro y hx hy h
    cases y with
    | nil => simp at h
    | cons g' gs' =>
      simp only [List.flatMap_cons, List.cons_append, List.cons.injEq] at h
      obtain ⟨h1, h2⟩ := h
      have hd : ∀ (l : List (α × List α)), (∀ g ∈ l, q g.1 ∧ ∀ a ∈ g.2, ¬ q a) →
          ∀ a, (l.flatMap (fun g => g.1 :: g.2)).head? = some a → ¬ ¬ q a := by
        intro l hl a ha
        cases l with
        | nil => simp at ha
        | cons z zs =>
          simp only [List.flatMap_cons, List.cons_append, List.head?_cons, Option.some.injEq] at ha
          subst ha
          exact fun hn => hn (hl z (by simp)).1
      obtain ⟨h3, h4⟩ := while_inj (q := fun a => ¬ q a) (hx g (by simp)).2 (hy g' (by simp)).2
        (hd gs fun z hz => hx z (by simp [hz])) (hd gs' fun z hz => hy z (by simp [hz])) h2
      rw [ih (fun z hz => hx z (by simp [hz])) (fun z hz => hy z (by simp [hz])) h4]
      obtain ⟨a, b⟩ := g
      obtain ⟨a', b'⟩ := g'
      simp only at h1 h3
      rw [h1, h3]

/-! ### arguments and signatures -/

def argText (a : ArgView) : Name :=
  a.id ++ (if a.isConst then " const".toList else []) ++
    (if a.ref = .lvalue then "&".toList else []) ++ (if a.ref = .rvalue then "&&".toList else [])

theorem text_eq (ids : Ty → Name) (a : Arg) : a.text ids = argText (argView ids a) := rfl

theorem ref_inj {x y r s : Name} (hx : '&' ∉ x) (hy : '&' ∉ y) (hr : ∀ c ∈ r, c = '&') (hs : ∀ c ∈ s, c = '&')
    (h : x ++ r = y ++ s) : x = y ∧ r = s :=
  while_inj (q := fun c => c ≠ '&') (fun a ha h => hx (h ▸ ha)) (fun a ha h => hy (h ▸ ha))
    (fun a ha hn => hn (hr a (List.mem_of_mem_head? ha))) (fun a ha hn => hn (hs a (List.mem_of_mem_head? ha))) h

theorem argText_inj {a b : ArgView} (ha : TypeName a.id) (hb : TypeName b.id) (h : argText a = argText b) :
    a = b := by
  obtain ⟨i, k, r⟩ := a
  obtain ⟨i', k', r'⟩ := b
  simp only at ha hb
  unfold argText at h
  simp only [List.append_assoc] at h
  rw [← List.append_assoc, ← List.append_assoc i'] at h
  have hc : ∀ (k : Bool) (i : Name), TypeName i → '&' ∉ i ++ (if k then " const".toList else []) := by
    intro k i hi hm
    rw [List.mem_append] at hm
    rcases hm with hm | hm
    · exact (hi.chars _ hm).2.1 rfl
    · cases k <;> simp at hm
  have hr : ∀ (r : RefType), ∀ c ∈ ((if r = .lvalue then "&".toList else []) ++
      (if r = .rvalue then "&&".toList else [])), c = '&' := by
    intro r c hm
    cases r <;> simp at hm <;> exact hm
  obtain ⟨h1, h2⟩ := ref_inj (hc k i ha) (hc k' i' hb) (hr r) (hr r') h
  have h3 : r = r' := by
    cases r <;> cases r' <;> simp at h2 <;> rfl
  have h4 : i = i' ∧ k = k' := by
    cases k <;> cases k'
    · simpa using h1
    · simp only [Bool.false_eq_true, if_false, if_true, List.append_nil] at h1
      exact absurd h1 (ha.noConst i')
    · simp only [Bool.false_eq_true, if_false, if_true, List.append_nil] at h1
      exact absurd h1.symm (hb.noConst i)
    · simp only [if_true] at h1
      exact ⟨List.append_cancel_right h1, rfl⟩
  rw [h4.1, h4.2, h3]

def restT : List ArgView → Name
  | [] => []
  | a :: as => ", ".toList ++ argText a ++ restT as

def argsT : List ArgView → Name
  | [] => []
  | a :: as => argText a ++ restT as

def sigT (s : SigView) : Name := argText s.ret ++ "(".toList ++ argsT s.args ++ ")".toList

theorem rest_eq (ids : Ty → Name) (as : List Arg) : restText ids as = restT (as.map (argView ids)) := by
  induction as with
  | nil => rfl
  | cons a as ih => simp only [restText, restT, List.map_cons, ih, text_eq]

theorem args_eq (ids : Ty → Name) (as : List Arg) : argsText ids as = argsT (as.map (argView ids)) := by
  cases as with
  | nil => rfl
  | cons a as => simp only [argsText, argsT, List.map_cons, rest_eq, text_eq]

theorem sig_eq (ids : Ty → Name) (ret : Arg) (args : List Arg) :
    sigText ids ret args = sigT (sigView ids ret args) := by
  simp only [sigText, sigT, sigView, args_eq, text_eq]

/-- there is no `, ` in it -/
def NoList (s : Name) : Prop := ∀ a b, s ≠ a ++ ',' :: ' ' :: b

theorem NoList.tail {c : Char} {s : Name} (h : NoList (c :: s)) : NoList s := by
  intro a b e; exact h (c :: a) b (by rw [e]; rfl)

/-- a `, ` in a text in two parts is in one of them or across -/
theorem noList_append {i t : Name} (hi : NoList i) (ht : NoList t) (hl : t.head? = some ' ' → i.getLast? ≠ some ',') :
    NoList (i ++ t) := by
  intro x y e
  rcases List.append_eq_append_iff.1 e with ⟨u, h1, h2⟩ | ⟨u, h1, h2⟩
  · exact ht u y h2
  · cases u with
    | nil => simp only [List.nil_append] at h2
             exact ht [] y h2.symm
    | cons c u =>
      simp only [List.cons_append, List.cons.injEq] at h2
      obtain ⟨rfl, h2⟩ := h2
      cases u with
      | nil =>
        simp only [List.nil_append] at h2
        exact hl (by rw [← h2]; rfl) (by rw [h1]; simp)
      | cons d u =>
        simp only [List.cons_append, List.cons.injEq] at h2
        obtain ⟨rfl, h2⟩ := h2
        exact hi x u h1

theorem noList_of_noComma {t : Name} (h : ',' ∉ t) : NoList t := by
  intro a b e
  exact h (by rw [e]; simp)

/-- what follows the name of a type -/
def suffixT (a : ArgView) : Name :=
  (if a.isConst then " const".toList else []) ++
    ((if a.ref = .lvalue then "&".toList else []) ++ (if a.ref = .rvalue then "&&".toList else []))

theorem argText_suffix (a : ArgView) : argText a = a.id ++ suffixT a := by
  simp only [argText, suffixT, List.append_assoc]

theorem suffix_chars (a : ArgView) : ∀ c ∈ suffixT a, c ≠ ',' ∧ c ≠ '(' ∧ c ≠ '\n' ∧ c ≠ '[' := by
  have key : ∀ (k : Bool) (r : RefType), ∀ c ∈ ((if k then " const".toList else []) ++
      ((if r = .lvalue then "&".toList else []) ++ (if r = .rvalue then "&&".toList else []))),
      c ≠ ',' ∧ c ≠ '(' ∧ c ≠ '\n' ∧ c ≠ '[' := by
    intro k r
    cases k <;> cases r <;> decide
  exact key a.isConst a.ref

theorem argText_noList {a : ArgView} (h : TypeName a.id) : NoList (argText a) := by
  rw [argText_suffix]
  exact noList_append h.noList (noList_of_noComma fun hm => (suffix_chars a _ hm).1 rfl) fun _ => h.noComma

theorem argText_last {a : ArgView} (h : TypeName a.id) : (argText a).getLast? ≠ some ',' := by
  rw [argText_suffix, List.getLast?_append]
  intro e
  cases hs : (suffixT a).getLast? with
  | none => rw [hs] at e; exact h.noComma (by simpa using e)
  | some c =>
    rw [hs] at e
    have e : some c = some ',' := e
    obtain rfl := Option.some.inj e
    exact (suffix_chars a _ (List.mem_of_getLast? hs)).1 rfl

theorem argText_ne {a : ArgView} (h : TypeName a.id) : argText a ≠ [] := by
  rw [argText_suffix]
  intro e
  exact h.nonempty (List.append_eq_nil_iff.1 e).1

/-- what precedes the first `, ` -/
theorem list_inj : ∀ {x y r s : Name}, NoList x → NoList y → x.getLast? ≠ some ',' → y.getLast? ≠ some ',' →
    (r = [] ∨ ∃ r', r = ',' :: ' ' :: r') → (s = [] ∨ ∃ s', s = ',' :: ' ' :: s') →
    x ++ r = y ++ s → x = y ∧ r = s := by
  have one : ∀ {x y r s : Name}, NoList y → y.getLast? ≠ some ',' →
      (r = [] ∨ ∃ r', r = ',' :: ' ' :: r') → ∀ u, y = x ++ u → r = u ++ s → u = [] := by
    intro x y r s hy hl hr u h1 h2
    cases u with
    | nil => rfl
    | cons c u =>
      rcases hr with rfl | ⟨r', rfl⟩
      · simp at h2
      · simp only [List.cons_append, List.cons.injEq] at h2
        obtain ⟨rfl, h2⟩ := h2
        cases u with
        | nil => exact absurd (by rw [h1]; simp) hl
        | cons d u =>
          simp only [List.cons_append, List.cons.injEq] at h2
          obtain ⟨rfl, h2⟩ := h2
          exact absurd h1 (hy x u)
  intro x y r s hx hy hlx hly hr hs h
  rcases List.append_eq_append_iff.1 h with ⟨u, h1, h2⟩ | ⟨u, h1, h2⟩
  · have := one hy hly hr u h1 h2
    subst this
    exact ⟨by simpa using h1.symm, by simpa using h2⟩
  · have := one hx hlx hs u h1 h2
    subst this
    exact ⟨by simpa using h1, by simpa using h2.symm⟩

theorem restT_head (as : List ArgView) : restT as = [] ∨ ∃ r, restT as = ',' :: ' ' :: r := by
  cases as with
  | nil => exact .inl rfl
  | cons a as => exact .inr ⟨_, rfl⟩

theorem restT_inj : ∀ {as bs : List ArgView}, (∀ a ∈ as, TypeName a.id) → (∀ a ∈ bs, TypeName a.id) →
    restT as = restT bs → as = bs := by
  intro as
  induction as with
  | nil =>
    intro bs _ _ h
    cases bs with
    | nil => rfl
    | cons b bs => simp [restT] at h
  | cons a as ih =>
    intro bs ha hb h
    cases bs with
    | nil => simp [restT] at h
    | cons b bs =>
      simp only [restT, List.append_assoc] at h
      have h := List.append_cancel_left h
      have ta := ha a (by simp)
      have tb := hb b (by simp)
      obtain ⟨h1, h2⟩ := list_inj (argText_noList ta) (argText_noList tb) (argText_last ta) (argText_last tb)
        (restT_head as) (restT_head bs) h
      rw [argText_inj ta tb h1, ih (fun x hx => ha x (by simp [hx])) (fun x hx => hb x (by simp [hx])) h2]

theorem argsT_inj {as bs : List ArgView} (ha : ∀ a ∈ as, TypeName a.id) (hb : ∀ a ∈ bs, TypeName a.id)
    (h : argsT as = argsT bs) : as = bs := by
  cases as with
  | nil =>
    cases bs with
    | nil => rfl
    | cons b bs =>
      simp only [argsT] at h
      exact absurd (List.append_eq_nil_iff.1 h.symm).1 (argText_ne (hb b (by simp)))
  | cons a as =>
    cases bs with
    | nil =>
      simp only [argsT] at h
      exact absurd (List.append_eq_nil_iff.1 h).1 (argText_ne (ha a (by simp)))
    | cons b bs =>
      apply restT_inj ha hb
      simp only [argsT] at h
      simp only [restT, List.append_assoc, h]

theorem argText_chars {a : ArgView} (h : TypeName a.id) : ∀ c ∈ argText a, c ≠ '\n' ∧ c ≠ '(' := by
  intro c hc
  rw [argText_suffix, List.mem_append] at hc
  rcases hc with hc | hc
  · exact ⟨(h.chars c hc).1, (h.chars c hc).2.2.1⟩
  · exact ⟨(suffix_chars a c hc).2.2.1, (suffix_chars a c hc).2.1⟩

theorem sigT_inj {s t : SigView} (hs : s.Named) (ht : t.Named) (h : sigT s = sigT t) : s = t := by
  obtain ⟨r, as⟩ := s
  obtain ⟨r', as'⟩ := t
  unfold sigT at h
  simp only [show "(".toList = ['('] from rfl, show ")".toList = [')'] from rfl, List.append_assoc,
    List.cons_append, List.nil_append] at h
  obtain ⟨h1, h2⟩ := first_inj (fun hm => (argText_chars hs.1 _ hm).2 rfl)
    (fun hm => (argText_chars ht.1 _ hm).2 rfl) h
  have h3 : r = r' := argText_inj hs.1 ht.1 h1
  have h4 : as = as' := argsT_inj hs.2 ht.2 (List.append_cancel_right h2)
  rw [h3, h4]

theorem restT_line : ∀ {as : List ArgView}, (∀ a ∈ as, TypeName a.id) → '\n' ∉ restT as := by
  intro as
  induction as with
  | nil => intro _; decide
  | cons a as ih =>
    intro ha hm
    simp only [restT, List.mem_append] at hm
    rcases hm with (hm | hm) | hm
    · revert hm; decide
    · exact (argText_chars (ha a (by simp)) _ hm).1 rfl
    · exact ih (fun x hx => ha x (by simp [hx])) hm

theorem sigT_line {s : SigView} (hs : s.Named) : '\n' ∉ sigT s := by
  intro hm
  simp only [sigT, List.mem_append] at hm
  rcases hm with ((hm | hm) | hm) | hm
  · exact (argText_chars hs.1 _ hm).1 rfl
  · revert hm; decide
  · cases has : s.args with
    | nil => rw [has] at hm; revert hm; decide
    | cons a as =>
      rw [has] at hm
      simp only [argsT, List.mem_append] at hm
      rcases hm with hm | hm
      · exact (argText_chars (hs.2 a (by simp [has])) _ hm).1 rfl
      · exact restT_line (fun x hx => hs.2 x (by simp [has, hx])) hm
  · revert hm; decide

end Reflect.Print
