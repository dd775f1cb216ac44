import Verif.Model.ScopeName
import Verif.Spec.ScopeName
namespace Reflect.Scope
open Reflect.Spec

/-- weight of a character going right -/
def w (c : Char) : Int := if c = '<' then 1 else if c = '>' then -1 else 0

theorem net_nil : net [] = 0 := by simp [net]

theorem net_cons (c : Char) (s : Name) : net (c :: s) = w c + net s := by
  unfold net w
  by_cases h1 : c = '<'
  · subst h1; simp [List.count_cons]; omega
  · by_cases h2 : c = '>'
    · subst h2; simp [List.count_cons]; omega
    · simp [List.count_cons, h1, h2]

theorem net_append (a b : Name) : net (a ++ b) = net a + net b := by
  unfold net; simp [List.count_append]; omega

theorem net_reverse (a : Name) : net a.reverse = net a := by
  unfold net; simp

/-- scanning `s` from nesting `n` (weights multiplied by `k`) ends balanced and sees no bare colon -/
def CompFrom (k : Int) (n : Int) (s : Name) : Prop :=
  n + k * net s = 0 ∧ ∀ b a, s = b ++ ':' :: a → n + k * net b ≠ 0

theorem compFrom_nil (k n : Int) : CompFrom k n [] ↔ n = 0 := by
  simp [CompFrom, net_nil]

theorem compFrom_cons (k n : Int) (c : Char) (s : Name) :
    CompFrom k n (c :: s) ↔ (c = ':' → n ≠ 0) ∧ CompFrom k (n + k * w c) s := by
  unfold CompFrom
  rw [net_cons]
  constructor
  · rintro ⟨h1, h2⟩
    refine ⟨?_, ?_, ?_⟩
    · intro hc; subst hc
      have := h2 [] s rfl
      simpa [net_nil] using this
    · rw [Int.mul_add] at h1; omega
    · intro b a hs
      have := h2 (c :: b) a (by simp [hs])
      rw [net_cons, Int.mul_add] at this; omega
  · rintro ⟨h0, h1, h2⟩
    refine ⟨by rw [Int.mul_add]; omega, ?_⟩
    intro b a hs
    cases b with
    | nil =>
      simp at hs
      have := h0 hs.1
      simpa [net_nil] using this
    | cons d b =>
      simp at hs
      obtain ⟨rfl, hs⟩ := hs
      have := h2 b a hs
      rw [net_cons, Int.mul_add]; omega

theorem isComponent_iff (c : Name) : IsComponent c ↔ CompFrom 1 0 c := by
  simp [IsComponent, CompFrom]

theorem isComponent_iff_rev (c : Name) : IsComponent c ↔ CompFrom (-1) 0 c.reverse := by
  unfold IsComponent CompFrom
  rw [net_reverse]
  constructor
  · rintro ⟨h1, h2⟩
    refine ⟨by omega, ?_⟩
    intro b a h
    have h' : c = a.reverse ++ ':' :: b.reverse := by
      have := congrArg List.reverse h
      simpa using this
    have := h2 _ _ h'
    rw [net_reverse] at this
    rw [h', net_append, net_cons, net_reverse, net_reverse] at h1
    have : w ':' = 0 := by decide
    omega
  · rintro ⟨h1, h2⟩
    refine ⟨by omega, ?_⟩
    intro b a h
    have := h2 a.reverse b.reverse (by simp [h])
    rw [net_reverse] at this
    rw [h, net_append, net_cons] at h1
    have : w ':' = 0 := by decide
    omega

/-- what both loops compute, `k = 1` rightwards, `k = -1` on the reversed name -/
def loopSpec (k : Int) (rest : Name) (n : Int) (f r : Name) : Prop :=
  CompFrom k n f ∧ (rest = f ++ ':' :: ':' :: r ∨ (rest = f ∧ r = []))

theorem loopSpec_nil (k n : Int) (f r : Name) :
    loopSpec k [] n f r ↔ n = 0 ∧ f = [] ∧ r = [] := by
  unfold loopSpec
  constructor
  · rintro ⟨h, h1 | ⟨h1, h2⟩⟩
    · simp at h1
    · subst h1; rw [compFrom_nil] at h; exact ⟨h, rfl, h2⟩
  · rintro ⟨h, rfl, rfl⟩
    exact ⟨(compFrom_nil _ _).2 h, Or.inr ⟨rfl, rfl⟩⟩

theorem loopSpec_step (k n : Int) (c : Char) (cs f r : Name) (hc : c = ':' → n ≠ 0) :
    loopSpec k (c :: cs) n f r ↔ ∃ f', f = c :: f' ∧ loopSpec k cs (n + k * w c) f' r := by
  unfold loopSpec
  constructor
  · rintro ⟨h, h1 | ⟨h1, h2⟩⟩
    · cases f with
      | nil =>
        simp at h1
        rw [compFrom_nil] at h
        exact absurd h (hc h1.1)
      | cons d f' =>
        simp at h1
        obtain ⟨rfl, h1⟩ := h1
        exact ⟨f', rfl, ((compFrom_cons ..).1 h).2, Or.inl h1⟩
    · subst h1
      exact ⟨cs, rfl, ((compFrom_cons ..).1 h).2, Or.inr ⟨rfl, h2⟩⟩
  · rintro ⟨f', rfl, h, h1⟩
    refine ⟨(compFrom_cons ..).2 ⟨hc, h⟩, ?_⟩
    rcases h1 with h1 | ⟨h1, h2⟩
    · left; simp [h1]
    · right; simp [h1, h2]

theorem loopSpec_colon (k : Int) (cs f r : Name) :
    loopSpec k (':' :: cs) 0 f r ↔ f = [] ∧ cs = ':' :: r := by
  unfold loopSpec
  constructor
  · rintro ⟨h, h1 | ⟨h1, h2⟩⟩
    · cases f with
      | nil => simp at h1; exact ⟨rfl, h1⟩
      | cons d f' =>
        simp at h1
        obtain ⟨rfl, h1⟩ := h1
        exact absurd rfl (((compFrom_cons ..).1 h).1 rfl)
    · subst h1
      exact absurd rfl (((compFrom_cons ..).1 h).1 rfl)
  · rintro ⟨rfl, rfl⟩
    exact ⟨(compFrom_nil _ _).2 rfl, Or.inl rfl⟩

theorem headLoop_ok (rest : Name) (n : Int) (acc f r : Name) :
    headLoop rest n acc = .ok (f, r) ↔ ∃ f', f = acc.reverse ++ f' ∧ loopSpec 1 rest n f' r := by
  induction rest generalizing n acc with
  | nil =>
    simp only [headLoop, loopSpec_nil]
    by_cases hn : n = 0
    · subst hn
      simp
      constructor
      · rintro ⟨rfl, rfl⟩; simp
      · rintro ⟨_, rfl, rfl, rfl⟩; simp
    · simp [hn]
  | cons c cs ih =>
    have step : ∀ m, (c = ':' → n ≠ 0) → m = n + 1 * w c →
        (headLoop cs m (c :: acc) = .ok (f, r) ↔
          ∃ f', f = acc.reverse ++ f' ∧ loopSpec 1 (c :: cs) n f' r) := by
      intro m hc hm
      rw [ih]; subst hm
      constructor
      · rintro ⟨f', rfl, h⟩
        exact ⟨c :: f', by simp, (loopSpec_step _ _ _ _ _ _ hc).2 ⟨f', rfl, h⟩⟩
      · rintro ⟨f', rfl, h⟩
        obtain ⟨f'', rfl, h'⟩ := (loopSpec_step _ _ _ _ _ _ hc).1 h
        exact ⟨f'', by simp, h'⟩
    unfold headLoop
    by_cases h1 : c = '<'
    · subst h1; simp only [if_true]; exact step _ (fun h => absurd h (by decide)) (by simp [w])
    · by_cases h2 : c = '>'
      · subst h2; simp only [h1, if_true, if_false]; exact step _ (fun h => absurd h (by decide)) (by simp [w]; omega)
      · by_cases h3 : c = ':'
        · subst h3
          by_cases hn : n = 0
          · subst hn
            simp only [loopSpec_colon, h1, h2, if_true, if_false]
            cases cs with
            | nil => simp
            | cons d rest =>
              by_cases hd : d = ':'
              · subst hd
                simp
                constructor
                · rintro ⟨rfl, rfl⟩; simp
                · rintro ⟨_, rfl, rfl, rfl⟩; simp
              · simp [hd]
          · simp only [h1, h2, hn, if_true, if_false, ne_eq, not_false_eq_true]
            exact step _ (fun _ => hn) (by simp [w])
        · simp only [h1, h2, h3, if_false]
          exact step _ (fun h => absurd h h3) (by simp [w, h1, h2])

theorem tailLoop_ok (rest : Name) (n : Int) (acc l p : Name) :
    tailLoop rest n acc = .ok (l, p) ↔
      ∃ l', l = l'.reverse ++ acc ∧ loopSpec (-1) rest n l' p.reverse := by
  induction rest generalizing n acc with
  | nil =>
    simp only [tailLoop, loopSpec_nil]
    by_cases hn : n = 0
    · subst hn
      simp
      constructor
      · rintro ⟨rfl, rfl⟩; simp
      · rintro ⟨_, rfl, rfl, rfl⟩; simp
    · simp [hn]
  | cons c cs ih =>
    have step : ∀ m, (c = ':' → n ≠ 0) → m = n + (-1) * w c →
        (tailLoop cs m (c :: acc) = .ok (l, p) ↔
          ∃ f', l = f'.reverse ++ acc ∧ loopSpec (-1) (c :: cs) n f' p.reverse) := by
      intro m hc hm
      rw [ih]; subst hm
      constructor
      · rintro ⟨f', rfl, h⟩
        exact ⟨c :: f', by simp, (loopSpec_step _ _ _ _ _ _ hc).2 ⟨f', rfl, h⟩⟩
      · rintro ⟨f', rfl, h⟩
        obtain ⟨f'', rfl, h'⟩ := (loopSpec_step _ _ _ _ _ _ hc).1 h
        exact ⟨f'', by simp, h'⟩
    unfold tailLoop
    by_cases h1 : c = '<'
    · subst h1; simp only [if_true]; exact step _ (fun h => absurd h (by decide)) (by simp [w]; omega)
    · by_cases h2 : c = '>'
      · subst h2; simp only [h1, if_true, if_false]; exact step _ (fun h => absurd h (by decide)) (by simp [w])
      · by_cases h3 : c = ':'
        · subst h3
          by_cases hn : n = 0
          · subst hn
            simp only [loopSpec_colon, h1, h2, if_true, if_false]
            cases cs with
            | nil => simp
            | cons d rest =>
              by_cases hd : d = ':'
              · subst hd
                simp
                constructor
                · rintro ⟨rfl, rfl⟩; simp
                · rintro ⟨_, rfl, rfl, rfl⟩; simp
              · simp [hd]
          · simp only [h1, h2, hn, if_true, if_false, ne_eq, not_false_eq_true]
            exact step _ (fun _ => hn) (by simp [w])
        · simp only [h1, h2, h3, if_false]
          exact step _ (fun h => absurd h h3) (by simp [w, h1, h2])

theorem head_ok (name f r : Name) :
    head name = .ok (f, r) ↔ IsComponent f ∧ (name = f ++ sep ++ r ∨ (name = f ∧ r = [])) := by
  unfold head
  rw [headLoop_ok]
  simp [loopSpec, isComponent_iff, sep]

theorem tail_ok (name l p : Name) :
    tail name = .ok (l, p) ↔ IsComponent l ∧ (name = p ++ sep ++ l ∨ (name = l ∧ p = [])) := by
  unfold tail
  rw [tailLoop_ok]
  simp only [List.append_nil]
  constructor
  · rintro ⟨l', rfl, h1, h2⟩
    refine ⟨(isComponent_iff_rev _).2 (by simpa using h1), ?_⟩
    rcases h2 with h2 | ⟨h2, h3⟩
    · left
      have := congrArg List.reverse h2
      simpa [sep] using this
    · right
      have := congrArg List.reverse h2
      exact ⟨by simpa using this, by simpa using h3⟩
  · rintro ⟨h1, h2⟩
    refine ⟨l.reverse, by simp, (isComponent_iff_rev _).1 h1, ?_⟩
    rcases h2 with h2 | ⟨h2, h3⟩
    · left; simp [h2, sep]
    · right; simp [h2, h3]

theorem headLoop_err (rest : Name) (n : Int) (acc : Name) (e : Fault) :
    headLoop rest n acc = .error e → e = .err := by
  fun_induction headLoop rest n acc <;> simp_all

theorem tailLoop_err (rest : Name) (n : Int) (acc : Name) (e : Fault) :
    tailLoop rest n acc = .error e → e = .err := by
  fun_induction tailLoop rest n acc <;> simp_all

theorem head_err {name : Name} {e : Fault} (h : head name = .error e) : e = .err :=
  headLoop_err _ _ _ _ h

theorem tail_err {name : Name} {e : Fault} (h : tail name = .error e) : e = .err :=
  tailLoop_err _ _ _ _ h

theorem head_length {name f r : Name} (h : head name = .ok (f, r)) (hr : r ≠ []) :
    r.length < name.length := by
  rcases (head_ok ..).1 h with ⟨_, h | ⟨_, h⟩⟩
  · subst h; simp [sep]; omega
  · exact absurd h hr

theorem tail_length {name l p : Name} (h : tail name = .ok (l, p)) (hp : p ≠ []) :
    p.length < name.length := by
  rcases (tail_ok ..).1 h with ⟨_, h | ⟨_, h⟩⟩
  · subst h; simp [sep]
  · exact absurd h hp

theorem qualified_cons {c : Name} {cs : List Name} (h : cs ≠ []) :
    qualified (c :: cs) = c ++ sep ++ qualified cs := by
  cases cs with
  | nil => exact absurd rfl h
  | cons d ds => rfl

theorem qualified_snoc {c : Name} {cs : List Name} (h : cs ≠ []) :
    qualified (cs ++ [c]) = qualified cs ++ sep ++ c := by
  induction cs with
  | nil => exact absurd rfl h
  | cons d ds ih =>
    by_cases hd : ds = []
    · subst hd; simp [qualified]
    · rw [List.cons_append, qualified_cons (by simp), ih hd, qualified_cons hd]
      simp

theorem qualified_ne_nil {cs : List Name} (h : cs ≠ []) (h2 : ∀ c ∈ cs, c ≠ []) :
    qualified cs ≠ [] := by
  cases cs with
  | nil => exact absurd rfl h
  | cons c ds =>
    have := h2 c (by simp)
    cases ds with
    | nil => simpa [qualified]
    | cons d ds => rw [qualified_cons (by simp)]; simp [this]

theorem head_single {c : Name} (h : IsComponent c) : head c = .ok (c, []) :=
  (head_ok ..).2 ⟨h, Or.inr ⟨rfl, rfl⟩⟩

theorem head_qualified {c : Name} {cs : List Name} (hc : IsComponent c) (h : cs ≠ []) :
    head (qualified (c :: cs)) = .ok (c, qualified cs) :=
  (head_ok ..).2 ⟨hc, Or.inl (qualified_cons h)⟩

theorem tail_single {c : Name} (h : IsComponent c) : tail c = .ok (c, []) :=
  (tail_ok ..).2 ⟨h, Or.inr ⟨rfl, rfl⟩⟩

theorem tail_qualified {c : Name} {cs : List Name} (hc : IsComponent c) (h : cs ≠ []) :
    tail (qualified (cs ++ [c])) = .ok (c, qualified cs) :=
  (tail_ok ..).2 ⟨hc, Or.inl (qualified_snoc h)⟩

theorem peelFront_qualified (cs : List Name) (h : ProperPath cs) :
    peelFront (qualified cs) = .ok cs := by
  obtain ⟨h0, h⟩ := h
  induction cs with
  | nil => exact absurd rfl h0
  | cons c ds ih =>
    have hc := h c (by simp)
    by_cases hd : ds = []
    · subst hd
      rw [peelFront]; simp [qualified, head_single hc.1]
    · have ih := ih hd (fun x hx => h x (by simp [hx]))
      have hne := qualified_ne_nil hd (fun x hx => (h x (by simp [hx])).2)
      have hh := head_qualified hc.1 hd
      rw [peelFront, hh]
      simp [hne, head_length hh hne, ih]

theorem peelBack_qualified (cs : List Name) (h : ProperPath cs) :
    peelBack (qualified cs) = .ok cs := by
  obtain ⟨h0, h⟩ := h
  generalize hn : cs.length = n
  induction n generalizing cs with
  | zero => simp at hn; exact absurd hn h0
  | succ n ih =>
    obtain ⟨ds, c, rfl⟩ : ∃ ds c, cs = ds ++ [c] :=
      ⟨_, _, (List.dropLast_concat_getLast h0).symm⟩
    have hc := h c (by simp)
    by_cases hd : ds = []
    · subst hd
      rw [peelBack]; simp [qualified, tail_single hc.1]
    · have ih := ih ds hd (fun x hx => h x (by simp [hx])) (by simpa using hn)
      have hne := qualified_ne_nil hd (fun x hx => (h x (by simp [hx])).2)
      have hh := tail_qualified hc.1 hd
      rw [peelBack, hh]
      simp [hne, tail_length hh hne, ih]

theorem peelFront_sound (name : Name) (cs : List Name) (h : peelFront name = .ok cs) :
    cs ≠ [] ∧ (∀ c ∈ cs, IsComponent c) ∧
      (name = qualified cs ∨ name = qualified cs ++ sep) := by
  induction hn : name.length using Nat.strongRecOn generalizing name cs with
  | ind n ih =>
    rw [peelFront] at h
    split at h
    · simp at h
    · rename_i first rest hh
      have hs := (head_ok ..).1 hh
      split at h
      · rename_i hr
        simp at h; subst h; subst hr
        refine ⟨by simp, by simpa using hs.1, ?_⟩
        rcases hs.2 with h | ⟨h, _⟩
        · right; simpa [qualified] using h
        · left; simpa [qualified] using h
      · rename_i hr
        split at h
        · rename_i hlt
          split at h
          · simp at h
          · rename_i ds hds
            simp at h; subst h
            obtain ⟨h1, h2, h3⟩ := ih _ (hn ▸ hlt) _ _ hds rfl
            refine ⟨by simp, by intro c hc; simp at hc; rcases hc with rfl | hc; exact hs.1; exact h2 c hc, ?_⟩
            rw [qualified_cons h1]
            rcases hs.2 with hs | ⟨_, hs⟩
            · rcases h3 with h3 | h3
              · left; rw [hs, h3]
              · right; rw [hs, h3]; simp
            · exact absurd hs hr
        · simp at h

end Reflect.Scope
