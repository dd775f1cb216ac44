import Verif.Spec.TypeName
import Verif.Lemmas.ScopeName
/-
  Lemmas for `Props/TypeName.lean`: the name as a structural text, and why the text determines the type.
-/
namespace Reflect.TypeName

/-- The text of a type by plain recursion. -/
def text : CTy → Name
  | .plain n => n
  | .cst t | .lref t | .rref t => text t
  | .ptr t => text t ++ ['*']
  | .app1 n t => n ++ ['<'] ++ text t ++ ['>']
  | .app2 n s t => n ++ ['<'] ++ text s ++ [','] ++ text t ++ ['>']

theorem text_decay (t : CTy) : text t.decay = text t := by
  induction t <;> simp_all [CTy.decay, text]

theorem clean_ptr (t : CTy) : (CTy.ptr t).clean = .ptr t.decay.clean := by rw [CTy.clean]

theorem clean_other (t : CTy) (h : ∀ u, t ≠ .ptr u) : t.clean = t.decay := by
  cases t with
  | ptr u => exact absurd rfl (h u)
  | _ => rw [CTy.clean]; simp

theorem text_clean : (t : CTy) → text t.clean = text t
  | .ptr t => by rw [clean_ptr, text, text, text_clean t.decay, text_decay]
  | .plain n => by rw [clean_other _ (by simp), text_decay]
  | .cst t => by rw [clean_other _ (by simp), text_decay]
  | .lref t => by rw [clean_other _ (by simp), text_decay]
  | .rref t => by rw [clean_other _ (by simp), text_decay]
  | .app1 .. => by rw [clean_other _ (by simp), text_decay]
  | .app2 .. => by rw [clean_other _ (by simp), text_decay]
  termination_by t => t.size
  decreasing_by simp only [CTy.size]; exact Nat.lt_succ_of_le (CTy.size_decay _)

theorem topClean_decay (t : CTy) : t.decay.topClean := by
  induction t <;> simp_all [CTy.decay, CTy.topClean]

theorem topClean_clean (t : CTy) : t.clean.topClean := by
  cases t with
  | ptr u => rw [clean_ptr]; rfl
  | _ => rw [clean_other _ (by simp)]; exact topClean_decay _

theorem typeId_eq_text_aux (n : Nat) : ∀ t : CTy, t.size ≤ n → typeId t = text t := by
  induction n with
  | zero => intro t h; cases t <;> simp [CTy.size] at h
  | succ n ih =>
    intro t hn
    have hs := CTy.size_clean t
    have ht := text_clean t
    have hc := topClean_clean t
    rw [typeId]
    split <;> rename_i h <;> rw [h] at hs <;> simp only [CTy.size] at hs
    · rw [← ht, h, text]
    · rw [← ht, h, text, ih _ (by omega)]
    · rw [← ht, h, text, ih _ (by omega)]
    · rw [← ht, h, text, ih _ (by omega), ih _ (by omega)]
    all_goals rw [h] at hc; simp [CTy.topClean] at hc

theorem typeId_eq_text (t : CTy) : typeId t = text t := typeId_eq_text_aux _ t (Nat.le_refl _)

theorem text_strip (t : CTy) : text t.strip = text t := by
  induction t <;> simp_all [CTy.strip, text]

/-- `k` pointers to `t`. -/
def ptrs : Nat → CTy → CTy
  | 0, t => t
  | k + 1, t => ptrs k (.ptr t)

/-- What may follow a type in a name: nothing, or the end of a template argument. -/
def Ends (u : Name) : Prop := u = [] ∨ ∃ c r, u = c :: r ∧ (c = '>' ∨ c = ',')

/-- A text starting with a letter that is not a name letter, or empty. -/
def Breaks (u : Name) : Prop := ∀ c r, u = c :: r → nameChar c = false

theorem name_break (n m u v : Name) (hn : n.all nameChar) (hm : m.all nameChar) (hu : Breaks u)
    (hv : Breaks v) (h : n ++ u = m ++ v) : n = m ∧ u = v := by
  induction n generalizing m with
  | nil =>
    cases m with
    | nil => exact ⟨rfl, by simpa using h⟩
    | cons c m =>
      have : u = c :: (m ++ v) := by simpa using h
      have h1 := hu _ _ this
      simp [h1] at hm
  | cons c n ih =>
    cases m with
    | nil =>
      have : v = c :: (n ++ u) := by simpa using h.symm
      have h1 := hv _ _ this
      simp [h1] at hn
    | cons d m =>
      simp only [List.cons_append, List.cons.injEq] at h
      simp only [List.all_cons, Bool.and_eq_true] at hn hm
      obtain ⟨h1, h2⟩ := ih m hn.2 hm.2 h.2
      exact ⟨by rw [h.1, h1], h2⟩

theorem ends_breaks_stars (k : Nat) (u : Name) (hu : Ends u) :
    Breaks (List.replicate k '*' ++ u) := by
  intro c r h
  cases k with
  | zero =>
    rcases hu with rfl | ⟨d, q, rfl, hd⟩
    · simp at h
    · simp at h
      rcases hd with rfl | rfl <;> simp [← h.1, nameChar]
  | succ k =>
    simp [List.replicate_succ] at h
    simp [← h.1, nameChar]

theorem breaks_lt (u : Name) : Breaks ('<' :: u) := by
  intro c r h
  simp at h
  simp [← h.1, nameChar]

theorem stars_inj (k l : Nat) (u v : Name) (hu : Ends u) (hv : Ends v)
    (h : List.replicate k '*' ++ u = List.replicate l '*' ++ v) : k = l ∧ u = v := by
  induction k generalizing l with
  | zero =>
    cases l with
    | zero => exact ⟨rfl, by simpa using h⟩
    | succ l =>
      simp [List.replicate_succ] at h
      rcases hu with rfl | ⟨d, q, rfl, hd⟩
      · simp at h
      · simp at h; rw [h.1] at hd; simp at hd
  | succ k ih =>
    cases l with
    | zero =>
      simp [List.replicate_succ] at h
      rcases hv with rfl | ⟨d, q, rfl, hd⟩
      · simp at h
      · simp at h; rw [← h.1] at hd; simp at hd
    | succ l =>
      simp only [List.replicate_succ, List.cons_append, List.cons.injEq, true_and] at h
      obtain ⟨h1, h2⟩ := ih l h
      exact ⟨by rw [h1], h2⟩

/-- stars after a name are not the start of a template argument list -/
theorem stars_ne_lt (k : Nat) (u w : Name) (hu : Ends u) :
    List.replicate k '*' ++ u ≠ '<' :: w := by
  intro h
  cases k with
  | zero =>
    rcases hu with rfl | ⟨d, q, rfl, hd⟩
    · simp at h
    · simp at h; rw [h.1] at hd; simp at hd
  | succ k => simp [List.replicate_succ] at h

theorem ends_gt (u : Name) : Ends ('>' :: u) := Or.inr ⟨_, _, rfl, Or.inl rfl⟩
theorem ends_comma (u : Name) : Ends (',' :: u) := Or.inr ⟨_, _, rfl, Or.inr rfl⟩

theorem star_swap (w u : Name) (k : Nat) :
    w ++ ['*'] ++ (List.replicate k '*' ++ u) = w ++ (List.replicate (k + 1) '*' ++ u) := by
  simp [List.replicate_succ]

/-- A type's text followed by stars and a closing letter determines the type (up to `const` and
    references), the stars and the rest. -/
theorem text_inj (s : CTy) : ∀ (t : CTy) (k l : Nat) (u v : Name), s.Simple → t.Simple → Ends u →
    Ends v → text s ++ (List.replicate k '*' ++ u) = text t ++ (List.replicate l '*' ++ v) →
    ptrs k s.strip = ptrs l t.strip ∧ u = v := by
  induction s with
  | cst s ih | lref s ih | rref s ih =>
    intro t k l u v hs ht hu hv h
    simpa [CTy.strip] using ih t k l u v hs ht hu hv h
  | ptr s ih =>
    intro t k l u v hs ht hu hv h
    rw [text, star_swap] at h
    simpa [CTy.strip, ptrs] using ih t (k + 1) l u v hs ht hu hv h
  | plain n =>
    intro t
    induction t with
    | cst t ih | lref t ih | rref t ih =>
      intro k l u v hs ht hu hv h
      simpa [CTy.strip] using ih k l u v hs ht hu hv h
    | ptr t ih =>
      intro k l u v hs ht hu hv h
      rw [text.eq_5 t, star_swap] at h
      simpa [CTy.strip, ptrs] using ih k (l + 1) u v hs ht hu hv h
    | plain m =>
      intro k l u v hs ht hu hv h
      obtain ⟨h1, h2⟩ := name_break n m _ _ hs ht (ends_breaks_stars k u hu)
        (ends_breaks_stars l v hv) h
      obtain ⟨h3, h4⟩ := stars_inj k l u v hu hv h2
      exact ⟨by rw [h1, h3], h4⟩
    | app1 m t _ =>
      intro k l u v hs ht hu hv h
      have h' : n ++ (List.replicate k '*' ++ u) =
          m ++ ('<' :: (text t ++ ('>' :: (List.replicate l '*' ++ v)))) := by
        simpa [text] using h
      obtain ⟨_, h2⟩ := name_break n m _ _ hs ht.1 (ends_breaks_stars k u hu) (breaks_lt _) h'
      exact absurd h2 (stars_ne_lt k u _ hu)
    | app2 m t1 t2 _ _ =>
      intro k l u v hs ht hu hv h
      have h' : n ++ (List.replicate k '*' ++ u) = m ++ ('<' :: (text t1 ++ (',' :: (text t2 ++
          ('>' :: (List.replicate l '*' ++ v)))))) := by
        simpa [text] using h
      obtain ⟨_, h2⟩ := name_break n m _ _ hs ht.1 (ends_breaks_stars k u hu) (breaks_lt _) h'
      exact absurd h2 (stars_ne_lt k u _ hu)
  | app1 n s ihs =>
    intro t
    induction t with
    | cst t ih | lref t ih | rref t ih =>
      intro k l u v hs ht hu hv h
      simpa [CTy.strip] using ih k l u v hs ht hu hv h
    | ptr t ih =>
      intro k l u v hs ht hu hv h
      rw [text.eq_5 t, star_swap] at h
      simpa [CTy.strip, ptrs] using ih k (l + 1) u v hs ht hu hv h
    | plain m =>
      intro k l u v hs ht hu hv h
      have h' : m ++ (List.replicate l '*' ++ v) =
          n ++ ('<' :: (text s ++ ('>' :: (List.replicate k '*' ++ u)))) := by
        simpa [text] using h.symm
      obtain ⟨_, h2⟩ := name_break m n _ _ ht hs.1 (ends_breaks_stars l v hv) (breaks_lt _) h'
      exact absurd h2 (stars_ne_lt l v _ hv)
    | app1 m t _ =>
      intro k l u v hs ht hu hv h
      have h' : n ++ ('<' :: (text s ++ ('>' :: (List.replicate k '*' ++ u)))) =
          m ++ ('<' :: (text t ++ ('>' :: (List.replicate l '*' ++ v)))) := by
        simpa [text] using h
      obtain ⟨h1, h2⟩ := name_break n m _ _ hs.1 ht.1 (breaks_lt _) (breaks_lt _) h'
      have h3 := (List.cons.inj h2).2
      obtain ⟨h4, h5⟩ := ihs t 0 0 _ _ hs.2 ht.2 (ends_gt _) (ends_gt _) (by simpa using h3)
      obtain ⟨h6, h7⟩ := stars_inj k l u v hu hv (List.cons.inj h5).2
      simp only [ptrs] at h4
      exact ⟨by rw [h6, h1, CTy.strip, CTy.strip, h4], h7⟩
    | app2 m t1 t2 _ _ =>
      intro k l u v hs ht hu hv h
      have h' : n ++ ('<' :: (text s ++ ('>' :: (List.replicate k '*' ++ u)))) =
          m ++ ('<' :: (text t1 ++ (',' :: (text t2 ++ ('>' :: (List.replicate l '*' ++ v)))))) := by
        simpa [text] using h
      obtain ⟨h1, h2⟩ := name_break n m _ _ hs.1 ht.1 (breaks_lt _) (breaks_lt _) h'
      have h3 := (List.cons.inj h2).2
      obtain ⟨h4, h5⟩ := ihs t1 0 0 _ _ hs.2 ht.2.1 (ends_gt _) (ends_comma _) (by simpa using h3)
      simp at h5
  | app2 n s1 s2 ihs1 ihs2 =>
    intro t
    induction t with
    | cst t ih | lref t ih | rref t ih =>
      intro k l u v hs ht hu hv h
      simpa [CTy.strip] using ih k l u v hs ht hu hv h
    | ptr t ih =>
      intro k l u v hs ht hu hv h
      rw [text.eq_5 t, star_swap] at h
      simpa [CTy.strip, ptrs] using ih k (l + 1) u v hs ht hu hv h
    | plain m =>
      intro k l u v hs ht hu hv h
      have h' : m ++ (List.replicate l '*' ++ v) =
          n ++ ('<' :: (text s1 ++ (',' :: (text s2 ++ ('>' :: (List.replicate k '*' ++ u)))))) := by
        simpa [text] using h.symm
      obtain ⟨_, h2⟩ := name_break m n _ _ ht hs.1 (ends_breaks_stars l v hv) (breaks_lt _) h'
      exact absurd h2 (stars_ne_lt l v _ hv)
    | app1 m t _ =>
      intro k l u v hs ht hu hv h
      have h' : n ++ ('<' :: (text s1 ++ (',' :: (text s2 ++ ('>' :: (List.replicate k '*' ++ u)))))) =
          m ++ ('<' :: (text t ++ ('>' :: (List.replicate l '*' ++ v)))) := by
        simpa [text] using h
      obtain ⟨h1, h2⟩ := name_break n m _ _ hs.1 ht.1 (breaks_lt _) (breaks_lt _) h'
      have h3 := (List.cons.inj h2).2
      obtain ⟨h4, h5⟩ := ihs1 t 0 0 _ _ hs.2.1 ht.2 (ends_comma _) (ends_gt _) (by simpa using h3)
      simp at h5
    | app2 m t1 t2 _ _ =>
      intro k l u v hs ht hu hv h
      have h' : n ++ ('<' :: (text s1 ++ (',' :: (text s2 ++ ('>' :: (List.replicate k '*' ++ u)))))) =
          m ++ ('<' :: (text t1 ++ (',' :: (text t2 ++ ('>' :: (List.replicate l '*' ++ v)))))) := by
        simpa [text] using h
      obtain ⟨h1, h2⟩ := name_break n m _ _ hs.1 ht.1 (breaks_lt _) (breaks_lt _) h'
      have h3 := (List.cons.inj h2).2
      obtain ⟨h4, h5⟩ := ihs1 t1 0 0 _ _ hs.2.1 ht.2.1 (ends_comma _) (ends_comma _) (by simpa using h3)
      obtain ⟨h6, h7⟩ := ihs2 t2 0 0 _ _ hs.2.2 ht.2.2 (ends_gt _) (ends_gt _)
        (by simpa using (List.cons.inj h5).2)
      obtain ⟨h8, h9⟩ := stars_inj k l u v hu hv (List.cons.inj h7).2
      simp only [ptrs] at h4 h6
      exact ⟨by rw [h8, h1, CTy.strip, CTy.strip, h4, h6], h9⟩

/-! ### brackets -/

open Reflect.Spec

theorem net_app (a b : Name) : net (a ++ b) = net a + net b := by
  simp only [net, List.count_append]; omega

/-- closing brackets never outnumber the opening ones before them -/
def NonNeg (w : Name) : Prop := ∀ p q, w = p ++ q → 0 ≤ net p

theorem nonNeg_app (a b : Name) (ha : NonNeg a) (hb : NonNeg b) : NonNeg (a ++ b) := by
  intro p q h
  rcases List.append_eq_append_iff.1 h with ⟨c, h1, h2⟩ | ⟨c, h1, h2⟩
  · rw [h1, net_app]
    have := ha a [] (by simp)
    have := hb c q h2
    omega
  · exact ha p c h1

theorem net_name (n : Name) (h : n.all nameChar) : net n = 0 := by
  have h1 : n.count '<' = 0 := by
    rw [List.count_eq_zero]; intro hm
    have := List.all_eq_true.1 h _ hm
    simp [nameChar] at this
  have h2 : n.count '>' = 0 := by
    rw [List.count_eq_zero]; intro hm
    have := List.all_eq_true.1 h _ hm
    simp [nameChar] at this
  simp [net, h1, h2]

theorem nonNeg_name (n : Name) (h : n.all nameChar) : NonNeg n := by
  intro p q e
  subst e
  simp only [List.all_append, Bool.and_eq_true] at h
  rw [net_name p h.1]; exact Int.le_refl _

theorem nonNeg_char (c : Char) (h : c ≠ '>') : NonNeg [c] := by
  intro p q e
  cases p with
  | nil => simp [net]
  | cons d p =>
    simp only [List.cons_append, List.cons.injEq, List.nil_eq, List.append_eq_nil_iff] at e
    obtain ⟨rfl, rfl, _⟩ := e
    have : ¬ (c == '>') = true := by simpa using h
    simp only [net, List.count_cons, List.count_nil, if_neg this]
    omega

theorem nonNeg_bracket (w : Name) (hw : NonNeg w) (h0 : net w = 0) :
    NonNeg (['<'] ++ w ++ ['>']) := by
  intro p q e
  rcases List.append_eq_append_iff.1 e with ⟨c, h1, h2⟩ | ⟨c, h1, h2⟩
  · rw [h1, net_app, net_app, h0]
    cases c with
    | nil => decide
    | cons d c =>
      simp only [List.cons_append, List.cons.injEq, List.nil_eq, List.append_eq_nil_iff] at h2
      obtain ⟨rfl, rfl, _⟩ := h2
      decide
  · exact nonNeg_app _ _ (nonNeg_char '<' (by decide)) hw p c h1

theorem net_bracket (w : Name) (h0 : net w = 0) : net (['<'] ++ w ++ ['>']) = 0 := by
  rw [net_app, net_app, h0]; decide

theorem text_balanced (t : CTy) (h : t.Simple) : net (text t) = 0 ∧ NonNeg (text t) := by
  induction t with
  | plain n => exact ⟨net_name n h, nonNeg_name n h⟩
  | cst t ih | lref t ih | rref t ih => exact ih h
  | ptr t ih =>
    obtain ⟨h1, h2⟩ := ih h
    refine ⟨?_, nonNeg_app _ _ h2 (nonNeg_char '*' (by decide))⟩
    rw [text, net_app, h1]; decide
  | app1 n t ih =>
    obtain ⟨h1, h2⟩ := ih h.2
    have e : text (.app1 n t) = n ++ (['<'] ++ text t ++ ['>']) := by simp [text]
    rw [e]
    refine ⟨?_, nonNeg_app _ _ (nonNeg_name n h.1) (nonNeg_bracket _ h2 h1)⟩
    rw [net_app, net_name n h.1, net_bracket _ h1]; rfl
  | app2 n s t ihs iht =>
    obtain ⟨h1, h2⟩ := ihs h.2.1
    obtain ⟨h3, h4⟩ := iht h.2.2
    have e : text (.app2 n s t) = n ++ (['<'] ++ (text s ++ ([','] ++ text t)) ++ ['>']) := by
      simp [text]
    have h5 : net (text s ++ ([','] ++ text t)) = 0 := by
      rw [net_app, net_app, h1, h3]; decide
    rw [e]
    refine ⟨?_, nonNeg_app _ _ (nonNeg_name n h.1) (nonNeg_bracket _ (nonNeg_app _ _ h2
      (nonNeg_app _ _ (nonNeg_char ',' (by decide)) h4)) h5)⟩
    rw [net_app, net_name n h.1, net_bracket _ h5]; rfl

theorem component_app (a b : Name) (ha : IsComponent a) (hb : IsComponent b) :
    IsComponent (a ++ b) := by
  refine ⟨by rw [net_app, ha.1, hb.1]; rfl, ?_⟩
  intro before after h
  rcases List.append_eq_append_iff.1 h with ⟨c, h1, h2⟩ | ⟨c, h1, h2⟩
  · rw [h1, net_app, ha.1, Int.zero_add]
    exact hb.2 c after h2
  · cases c with
    | nil =>
      rw [List.append_nil] at h1
      rw [← h1, ha.1]
      have := hb.2 [] after (by simpa using h2.symm)
      simp [net] at this
    | cons d c =>
      simp only [List.cons_append, List.cons.injEq] at h2
      rw [← h2.1] at h1
      exact ha.2 before c h1

theorem component_bracket (w : Name) (hw : NonNeg w) (h0 : net w = 0) :
    IsComponent (['<'] ++ w ++ ['>']) := by
  refine ⟨net_bracket w h0, ?_⟩
  intro before after h
  cases before with
  | nil => simp at h
  | cons d before =>
    simp only [List.cons_append, List.nil_append, List.cons.injEq] at h
    obtain ⟨rfl, h⟩ := h
    have hp : 0 ≤ net before := by
      rcases List.append_eq_append_iff.1 h with ⟨c, h1, h2⟩ | ⟨c, h1, h2⟩
      · cases c with
        | nil => simp at h2
        | cons e c => simp at h2
      · exact hw before c h1
    have : net ('<' :: before) = 1 + net before := by
      rw [show '<' :: before = ['<'] ++ before from rfl, net_app]; rfl
    omega

/-- What follows the outermost name. -/
def suffix : CTy → Name
  | .plain _ => []
  | .cst t | .lref t | .rref t => suffix t
  | .ptr t => suffix t ++ ['*']
  | .app1 _ t => ['<'] ++ text t ++ ['>']
  | .app2 _ s t => ['<'] ++ (text s ++ ([','] ++ text t)) ++ ['>']

theorem text_suffix (t : CTy) : text t = t.headName ++ suffix t := by
  induction t <;> simp_all [text, CTy.headName, suffix]

theorem component_nil : IsComponent [] := ⟨rfl, fun b a h => by simp at h⟩

theorem component_star : IsComponent ['*'] := by
  refine ⟨rfl, fun b a h => ?_⟩
  cases b with
  | nil => simp at h
  | cons d b => simp at h

theorem component_suffix (t : CTy) (h : t.Simple) : IsComponent (suffix t) := by
  induction t with
  | plain n => exact component_nil
  | cst t ih | lref t ih | rref t ih => exact ih h
  | ptr t ih => exact component_app _ _ (ih h) component_star
  | app1 n t _ =>
    obtain ⟨h1, h2⟩ := text_balanced t h.2
    exact component_bracket _ h2 h1
  | app2 n s t _ _ =>
    obtain ⟨h1, h2⟩ := text_balanced s h.2.1
    obtain ⟨h3, h4⟩ := text_balanced t h.2.2
    refine component_bracket _ (nonNeg_app _ _ h2 (nonNeg_app _ _ (nonNeg_char ',' (by decide)) h4)) ?_
    rw [net_app, net_app, h1, h3]; decide

theorem qualified_extend (ds : List Name) (c e : Name) :
    qualified (ds ++ [c]) ++ e = qualified (ds ++ [c ++ e]) := by
  cases ds with
  | nil => rfl
  | cons d ds =>
    rw [Scope.qualified_snoc (by simp), Scope.qualified_snoc (by simp)]
    simp

end Reflect.TypeName
