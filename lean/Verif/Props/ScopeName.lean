import Verif.Lemmas.ScopeName
/-
  Properties C01 and C02: splitting qualified names (src/scope.cpp:18-81).
  `IsComponent`, `qualified`, `ProperPath` are in `Spec/ScopeName.lean`.
-/
namespace Reflect.Scope
open Reflect.Spec

/-- no `:` of `s` has balanced brackets before it -/
def NoTopColon (s : Name) : Prop := ∀ before after, s = before ++ ':' :: after → net before ≠ 0

/-- C01. Splitting off the first component succeeds with `(first, rest)` exactly when `first` is a
    component and the name is `first::rest`, or is `first` alone and `rest` is empty. -/
theorem C01_head_iff (name first rest : Name) :
    head name = .ok (first, rest) ↔
      IsComponent first ∧ (name = first ++ sep ++ rest ∨ (name = first ∧ rest = [])) :=
  head_ok name first rest

/-- C01, the mirrored law for the last component. -/
theorem C01_tail_iff (name last front : Name) :
    tail name = .ok (last, front) ↔
      IsComponent last ∧ (name = front ++ sep ++ last ∨ (name = last ∧ front = [])) :=
  tail_ok name last front

/-- C01. The rejected names: the first top-level `:` is not followed by `:`, or there is no
    top-level `:` and the brackets do not balance. The outcome is always a reported error. -/
theorem C01_head_rejects_iff (name : Name) (e : Fault) :
    head name = .error e ↔ e = .err ∧
      ((∃ before after, name = before ++ ':' :: after ∧ net before = 0 ∧ NoTopColon before ∧
          ∀ rest, after ≠ ':' :: rest) ∨
       (NoTopColon name ∧ net name ≠ 0)) := by
  constructor
  · intro h
    refine ⟨head_err h, ?_⟩
    by_cases hN : NoTopColon name
    · right
      refine ⟨hN, fun h0 => ?_⟩
      have : head name = .ok (name, []) := (head_ok ..).2 ⟨⟨h0, hN⟩, Or.inr ⟨rfl, rfl⟩⟩
      rw [h] at this; cases this
    · left
      -- take the shortest offending prefix
      have hex : ∃ n before after, name = before ++ ':' :: after ∧ net before = 0 ∧
          before.length = n := by
        unfold NoTopColon at hN
        simp only [Classical.not_forall, not_imp, Classical.not_not, ne_eq] at hN
        obtain ⟨b, a, h1, h2⟩ := hN
        exact ⟨b.length, b, a, h1, h2, rfl⟩
      obtain ⟨before, after, h1, h2, hmin⟩ : ∃ before after, name = before ++ ':' :: after ∧
          net before = 0 ∧ NoTopColon before := by
        obtain ⟨n, hn⟩ := hex
        induction n using Nat.strongRecOn with
        | ind n ih =>
          obtain ⟨b, a, h1, h2, h3⟩ := hn
          by_cases hb : NoTopColon b
          · exact ⟨b, a, h1, h2, hb⟩
          · unfold NoTopColon at hb
            simp only [Classical.not_forall, not_imp, Classical.not_not, ne_eq] at hb
            obtain ⟨b', a', h4, h5⟩ := hb
            refine ih b'.length (by rw [← h3, h4]; simp) ⟨b', a' ++ ':' :: a, ?_, h5, rfl⟩
            rw [h1, h4]; simp
      refine ⟨before, after, h1, h2, hmin, ?_⟩
      rintro rest rfl
      have : head name = .ok (before, rest) :=
        (head_ok ..).2 ⟨⟨h2, hmin⟩, Or.inl (by rw [h1]; simp [sep])⟩
      rw [h] at this; cases this
  · rintro ⟨rfl, h⟩
    cases hh : head name with
    | error e => rw [head_err hh]
    | ok v =>
      exfalso
      obtain ⟨f, r⟩ := v
      obtain ⟨hf, hd⟩ := (head_ok ..).1 hh
      rcases h with ⟨b, a, h1, h2, h3, h4⟩ | ⟨h1, h2⟩
      · rcases hd with hd | ⟨hd, rfl⟩
        · -- both `b` and `f` end at the first top-level colon
          rw [h1] at hd
          rcases List.append_eq_append_iff.1
            (show b ++ ':' :: a = f ++ (':' :: ':' :: r) by simpa [sep] using hd) with
            ⟨t, ht, ht'⟩ | ⟨t, ht, ht'⟩
          · cases t with
            | nil => simp at ht'; exact h4 _ ht'
            | cons d t =>
              simp at ht'
              exact hf.2 b t (by rw [ht, ← ht'.1]) h2
          · cases t with
            | nil => simp at ht'; exact h4 _ ht'.symm
            | cons d t =>
              simp at ht'
              exact h3 f t (by rw [ht, ← ht'.1]) hf.1
        · subst hd; exact hf.2 b a h1 h2
      · rcases hd with hd | ⟨hd, rfl⟩
        · exact h1 f (':' :: r) (by rw [hd]; simp [sep]) hf.1
        · subst hd; exact h2 hf.1

/-- no `:` of `s` has balanced brackets after it -/
def NoTopColonBack (s : Name) : Prop := ∀ before after, s = before ++ ':' :: after → net after ≠ 0

theorem component_back {c : Name} (h : net c = 0) (hb : NoTopColonBack c) : IsComponent c := by
  refine ⟨h, fun before after e h0 => hb before after e ?_⟩
  have : net c = net before + net (':' :: after) := by rw [e, net_append]
  rw [net_cons] at this
  have hw : w ':' = 0 := by decide
  omega

theorem back_of_component {c : Name} (h : IsComponent c) : NoTopColonBack c := by
  intro before after e h0
  refine h.2 before after e ?_
  have h1 : net c = net before + net (':' :: after) := by rw [e, net_append]
  rw [net_cons] at h1
  have hw : w ':' = 0 := by decide
  have := h.1
  omega

/-- C01, the mirrored law for rejections: the last top-level `:` is not preceded by `:`, or there is no
    top-level `:` and the brackets do not balance. -/
theorem C01_tail_rejects_iff (name : Name) (e : Fault) :
    tail name = .error e ↔ e = .err ∧
      ((∃ before after, name = before ++ ':' :: after ∧ net after = 0 ∧ NoTopColonBack after ∧
          ∀ front, before ≠ front ++ [':']) ∨
       (NoTopColonBack name ∧ net name ≠ 0)) := by
  constructor
  · intro h
    refine ⟨tail_err h, ?_⟩
    by_cases hN : NoTopColonBack name
    · right
      refine ⟨hN, fun h0 => ?_⟩
      have : tail name = .ok (name, []) := (tail_ok ..).2 ⟨component_back h0 hN, Or.inr ⟨rfl, rfl⟩⟩
      rw [h] at this; cases this
    · left
      have hex : ∃ n before after, name = before ++ ':' :: after ∧ net after = 0 ∧
          after.length = n := by
        unfold NoTopColonBack at hN
        simp only [Classical.not_forall, not_imp, Classical.not_not, ne_eq] at hN
        obtain ⟨b, a, h1, h2⟩ := hN
        exact ⟨a.length, b, a, h1, h2, rfl⟩
      obtain ⟨before, after, h1, h2, hmin⟩ : ∃ before after, name = before ++ ':' :: after ∧
          net after = 0 ∧ NoTopColonBack after := by
        obtain ⟨n, hn⟩ := hex
        induction n using Nat.strongRecOn with
        | ind n ih =>
          obtain ⟨b, a, h1, h2, h3⟩ := hn
          by_cases hb : NoTopColonBack a
          · exact ⟨b, a, h1, h2, hb⟩
          · unfold NoTopColonBack at hb
            simp only [Classical.not_forall, not_imp, Classical.not_not, ne_eq] at hb
            obtain ⟨b', a', h4, h5⟩ := hb
            refine ih a'.length (by rw [← h3, h4]; simp; omega) ⟨b ++ ':' :: b', a', ?_, h5, rfl⟩
            rw [h1, h4]; simp
      refine ⟨before, after, h1, h2, hmin, ?_⟩
      rintro front rfl
      have : tail name = .ok (after, front) :=
        (tail_ok ..).2 ⟨component_back h2 hmin, Or.inl (by rw [h1]; simp [sep])⟩
      rw [h] at this; cases this
  · rintro ⟨rfl, h⟩
    cases hh : tail name with
    | error e => rw [tail_err hh]
    | ok v =>
      exfalso
      obtain ⟨l, r⟩ := v
      obtain ⟨hf, hd⟩ := (tail_ok ..).1 hh
      have hfb := back_of_component hf
      rcases h with ⟨b, a, h1, h2, h3, h4⟩ | ⟨h1, h2⟩
      · rcases hd with hd | ⟨hd, rfl⟩
        · rw [h1] at hd
          rcases List.append_eq_append_iff.1
            (show b ++ ':' :: a = (r ++ [':']) ++ (':' :: l) by simpa [sep] using hd) with
            ⟨t, ht, ht'⟩ | ⟨t, ht, ht'⟩
          · cases t with
            | nil => exact h4 r (by simpa using ht.symm)
            | cons d t =>
              simp at ht'
              exact h3 t l ht'.2 hf.1
          · cases t with
            | nil => exact h4 r (by simpa using ht)
            | cons d t =>
              simp at ht'
              exact hfb t a ht'.2 h2
        · subst hd; exact hfb b a h1 h2
      · rcases hd with hd | ⟨hd, rfl⟩
        · exact h1 (r ++ [':']) l (by rw [hd]; simp [sep]) hf.1
        · subst hd; exact h2 hf.1

/-- C01. Rejoining what was split gives the name back, when neither part is empty. -/
theorem C01_join_head (name first rest : Name) (h : head name = .ok (first, rest))
    (h1 : first ≠ []) (h2 : rest ≠ []) : join first rest = name := by
  rcases (head_ok ..).1 h with ⟨_, h | ⟨_, h⟩⟩
  · simp [join, h1, h, sep]
  · exact absurd h h2

theorem C01_join_tail (name last front : Name) (h : tail name = .ok (last, front))
    (h2 : front ≠ []) : join front last = name := by
  rcases (tail_ok ..).1 h with ⟨_, h | ⟨_, h⟩⟩
  · simp [join, h2, h, sep]
  · exact absurd h h2

-- the hypotheses are met by names with template arguments, nested colons and empty parts
example : head "std::map<a::b,c<d>>::it".toList = .ok ("std".toList, "map<a::b,c<d>>::it".toList) := by
  decide
example : tail "std::map<a::b,c<d>>::it".toList = .ok ("it".toList, "std::map<a::b,c<d>>".toList) := by
  decide
example : head "map<a::b>".toList = .ok ("map<a::b>".toList, []) := by decide
example : head "a:b".toList = .error .err ∧ head "a<b".toList = .error .err := by decide

/-- C02. Splitting a proper qualified name from the front gives exactly its components. -/
theorem C02_front_components (cs : List Name) (h : ProperPath cs) :
    peelFront (qualified cs) = .ok cs := peelFront_qualified cs h

/-- C02. Splitting it from the back gives the same components. -/
theorem C02_back_components (cs : List Name) (h : ProperPath cs) :
    peelBack (qualified cs) = .ok cs := peelBack_qualified cs h

/-- C02. Whatever the front split accepts is its components written out, up to a final `::`;
    in particular it never diverges. -/
theorem C02_front_sound (name : Name) (cs : List Name) (h : peelFront name = .ok cs) :
    cs ≠ [] ∧ (∀ c ∈ cs, IsComponent c) ∧ (name = qualified cs ∨ name = qualified cs ++ sep) :=
  peelFront_sound name cs h

/-- C02. Whatever the back split accepts is its components written out, up to a `::` in front. -/
theorem C02_back_sound (name : Name) (cs : List Name) (h : peelBack name = .ok cs) :
    cs ≠ [] ∧ (∀ c ∈ cs, IsComponent c) ∧ (name = qualified cs ∨ name = sep ++ qualified cs) := by
  induction hn : name.length using Nat.strongRecOn generalizing name cs with
  | ind n ih =>
    rw [peelBack] at h
    split at h
    · simp at h
    · rename_i last front hh
      have hs := (tail_ok ..).1 hh
      split at h
      · rename_i hr
        simp at h; subst h; subst hr
        refine ⟨by simp, by simpa using hs.1, ?_⟩
        rcases hs.2 with h | ⟨h, _⟩
        · right; simpa [qualified] using h
        · left; simpa [qualified] using h
      · rename_i hr
        split at h
        · rename_i hlt
          split at h
          · simp at h
          · rename_i ds hds
            simp at h; subst h
            obtain ⟨h1, h2, h3⟩ := ih _ (hn ▸ hlt) _ _ hds rfl
            refine ⟨by simp, by intro c hc; simp at hc; rcases hc with hc | rfl; exact h2 c hc; exact hs.1, ?_⟩
            rw [qualified_snoc h1]
            rcases hs.2 with hs | ⟨_, hs⟩
            · rcases h3 with h3 | h3
              · left; rw [hs, h3]
              · right; rw [hs, h3]; simp
            · exact absurd hs hr
        · simp at h

/-- C02. The two directions agree: a name that does not begin or end with an empty component is split into the non-empty components `cs` from
    the front exactly when it is from the back, and exactly when it is `cs` written out. -/
theorem C02_agree (name : Name) (cs : List Name) (hc : ∀ c ∈ cs, c ≠ []) (hfront : ∀ r, name ≠ sep ++ r) (hback : ∀ r, name ≠ r ++ sep) :
    (peelFront name = .ok cs ↔ peelBack name = .ok cs) ∧ (peelFront name = .ok cs ↔ ProperPath cs ∧ name = qualified cs) := by
  have hf : peelFront name = .ok cs ↔ ProperPath cs ∧ name = qualified cs := by
    constructor
    · intro h
      obtain ⟨h1, h2, h3⟩ := peelFront_sound name cs h
      exact ⟨⟨h1, fun c m => ⟨h2 c m, hc c m⟩⟩, h3.resolve_right (hback _)⟩
    · rintro ⟨h, rfl⟩; exact peelFront_qualified cs h
  refine ⟨hf.trans ⟨?_, ?_⟩, hf⟩
  · rintro ⟨h, rfl⟩; exact peelBack_qualified cs h
  · intro h
    obtain ⟨h1, h2, h3⟩ := C02_back_sound name cs h
    exact ⟨⟨h1, fun c m => ⟨h2 c m, hc c m⟩⟩, h3.resolve_right (hfront _)⟩

/-- C02. Qualified names are unambiguous: equal texts have equal components. -/
theorem C02_qualified_injective (cs ds : List Name) (hc : ProperPath cs) (hd : ProperPath ds)
    (h : qualified cs = qualified ds) : cs = ds := by
  have h1 := peelFront_qualified cs hc
  rw [h, peelFront_qualified ds hd] at h1
  exact (Except.ok.inj h1).symm

/-- C02 fails without the restriction to non-empty components: with an empty component in the
    middle the two directions see different paths. -/
theorem C02_empty_component_disagrees :
    peelFront "a::::b".toList = .ok ["a".toList, [], "b".toList] ∧
    tail "a::::b".toList = .ok ("b".toList, "a::".toList) ∧
    peelFront "a::".toList = .ok ["a".toList] := by
  refine ⟨?_, by decide, ?_⟩
  · simp [peelFront, head, headLoop]
  · simp [peelFront, head, headLoop]

example : ProperPath ["std".toList, "map<a::b,c<d>>".toList, "it".toList] := by
  refine ⟨by simp, ?_⟩
  intro c hc
  simp only [List.mem_cons, List.not_mem_nil, or_false] at hc
  rcases hc with rfl | rfl | rfl
  · exact ⟨((head_ok "std".toList _ []).1 (by decide)).1, by decide⟩
  · exact ⟨((head_ok "map<a::b,c<d>>".toList _ []).1 (by decide)).1, by decide⟩
  · exact ⟨((head_ok "it".toList _ []).1 (by decide)).1, by decide⟩

end Reflect.Scope
