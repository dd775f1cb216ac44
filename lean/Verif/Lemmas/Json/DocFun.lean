import Verif.Lemmas.Json.Print
/- A value is printed as one document only. -/
namespace Reflect.Json

variable {env : Env}

theorem int_not_float {s : Bytes} (hi : IntGram s) (hf : FloatGram s) : False := by
  obtain ⟨sg, c, ds, e, h1, h2, _⟩ := hi
  obtain ⟨i, f, x, e2, _, hf, hx, hne⟩ := hf
  have plain : ∀ b ∈ s, b = 45 ∨ (48 ≤ b.toNat ∧ b.toNat ≤ 57) := by
    intro b hb
    rw [e] at hb
    rcases List.mem_append.mp hb with hb | hb
    · rcases h1 with h1 | h1
      · rw [h1] at hb; cases hb
      · rw [h1] at hb; simp at hb; exact Or.inl hb
    · exact Or.inr (h2 b hb)
  have bad : ∀ b, (b = 46 ∨ b = 101 ∨ b = 69) → b ∈ s → False := by
    intro b hb hm
    have := plain b hm
    rcases hb with rfl | rfl | rfl <;> revert this <;> decide
  rcases hne with hne | hne
  · rcases hf with h | ⟨ds, h, _⟩
    · exact hne h
    · exact bad 46 (Or.inl rfl) (by rw [e2, h]; simp)
  · rcases hx with h | ⟨b, sg, ds, h, hb, _⟩
    · exact hne h
    · exact bad b (Or.inr hb) (by rw [e2, h]; simp)

theorem lastWith_unique {d : TyD} {a : Bytes} {f g : FieldD} (h1 : d.LastWith a f) (h2 : d.LastWith a g) : f = g := by
  obtain ⟨l1, l2, e1, k1, n1⟩ := h1
  obtain ⟨m1, m2, e2, k2, n2⟩ := h2
  rw [e1] at e2
  rcases List.append_eq_append_iff.mp e2 with ⟨t, h1, h2⟩ | ⟨t, h1, h2⟩
  · cases t with
    | nil => simp at h2; exact h2.1
    | cons p t =>
      injection h2 with hp hq
      exact absurd k2 (n1 g (by rw [hq]; simp))
  · cases t with
    | nil => simp at h2; exact h2.1.symm
    | cons p t =>
      injection h2 with hp hq
      exact absurd k1 (n2 f (by rw [hq]; simp))

theorem listing_unique {d : TyD} {l l' : List (Bytes × FieldD)} (h : d.Listing l) (h' : d.Listing l') : l = l' := by
  have hk : l.map (·.1) = l'.map (·.1) := sorted_unique h.2.1 h'.2.1 (h.1.trans h'.1.symm)
  have h1 := h.2.2
  have h2 := h'.2.2
  clear h h'
  induction l generalizing l' with
  | nil => cases l' with
    | nil => rfl
    | cons p l' => cases hk
  | cons p l ih =>
    cases l' with
    | nil => cases hk
    | cons q l' =>
      simp only [List.map_cons] at hk
      injection hk with k1 k2
      obtain ⟨a, f⟩ := p
      obtain ⟨b, g⟩ := q
      simp only at k1
      subst k1
      have := lastWith_unique (h1 (a, f) (by simp)) (h2 (a, g) (by simp))
      simp only at this
      subst this
      rw [ih k2 (fun p hp => h1 p (by simp [hp])) (fun p hp => h2 p (by simp [hp]))]

theorem entries_unique {m es es' : List (Bytes × JV)} (hk : es.map (·.1) = es'.map (·.1))
    (h1 : ∀ p ∈ es, Assoc.get m p.1 = some p.2) (h2 : ∀ p ∈ es', Assoc.get m p.1 = some p.2) : es = es' := by
  induction es generalizing es' with
  | nil => cases es' with
    | nil => rfl
    | cons p l' => cases hk
  | cons p l ih =>
    cases es' with
    | nil => cases hk
    | cons q l' =>
      simp only [List.map_cons] at hk
      injection hk with k1 k2
      obtain ⟨a, f⟩ := p
      obtain ⟨b, g⟩ := q
      simp only at k1
      subst k1
      have e1 := h1 (a, f) (by simp)
      have e2 := h2 (a, g) (by simp)
      simp only at e1 e2
      rw [e1] at e2
      injection e2 with e2
      subst e2
      rw [ih k2 (fun p hp => h1 p (by simp [hp])) (fun p hp => h2 p (by simp [hp]))]

mutual
theorem doc_fun {k : Bool} : ∀ {ty : TyId} {v : JV} {x : JTree}, Doc env k ty v x → ∀ {x' : JTree}, Doc env k ty v x' → x = x'
  | _, _, _, .bool ty d b h1 h2, _, h' => by cases h'; rfl
  | _, _, _, .int ty d b h1 h2, _, h' => by cases h'; rfl
  | _, _, _, .fltInt ty d x h1 h2 h3, _, h' => by
    cases h' with
    | fltInt => rfl
    | flt d' _ g1 g2 g3 => exact (int_not_float h3 ‹_›).elim
  | _, _, _, .flt ty d x h1 h2 h3, _, h' => by
    cases h' with
    | flt => rfl
    | fltInt d' _ g1 g2 g3 => exact (int_not_float ‹_› h3).elim
  | _, _, _, .str ty d b h1 h2, _, h' => by cases h'; rfl
  | _, _, _, .null ty d t h1, _, h' => by cases h'; rfl
  | _, _, _, .ptr ty d t v x h1 h2, _, h' => by
    cases h' with
    | ptr _ d' t' _ _ g1 g2 =>
      obtain ⟨_, e⟩ := has_unique h1 g1
      injection e with e
      subst e
      exact doc_fun h2 g2
  | _, _, _, .list ty d t vs xs h1 h2, _, h' => by
    cases h' with
    | list _ d' t' _ _ g1 g2 =>
      obtain ⟨_, e⟩ := has_unique h1 g1
      injection e with e
      subst e
      rw [docElems_fun h2 g2]
  | _, _, _, .map ty d t m es ms h1 h2 h3 h4, _, h' => by
    cases h' with
    | map _ d' t' _ es' _ g1 g2 g3 g4 =>
      obtain ⟨e0, e⟩ := has_unique h1 g1
      injection e with e
      subst e e0
      have := entries_unique (h2.trans g2.symm) h3 g3
      subst this
      rw [docEntries_fun h4 g4]
  | _, _, _, .obj ty d fs l ms h1 h2 h3, _, h' => by
    cases h' with
    | obj _ d' _ l' _ g1 g2 g3 =>
      obtain ⟨e0, _⟩ := has_unique h1 g1
      subst e0
      have := listing_unique h2 g2
      subst this
      rw [docFields_fun h3 g3]
termination_by structural _ _ _ h => h
theorem docElems_fun {k : Bool} : ∀ {t : TyId} {vs : List JV} {xs : List JTree}, DocElems env k t vs xs →
    ∀ {xs' : List JTree}, DocElems env k t vs xs' → xs = xs'
  | _, _, _, .nil t, _, h' => by cases h'; rfl
  | _, _, _, .cons t v vs x xs h1 h2, _, h' => by
    cases h' with
    | cons _ _ _ x' xs' g1 g2 => rw [doc_fun h1 g1, docElems_fun h2 g2]
termination_by structural _ _ _ h => h
theorem docEntries_fun {k : Bool} : ∀ {t : TyId} {es : List (Bytes × JV)} {ms : List (Bytes × JTree)},
    DocEntries env k t es ms → ∀ {ms' : List (Bytes × JTree)}, DocEntries env k t es ms' → ms = ms'
  | _, _, _, .nil t, _, h' => by cases h'; rfl
  | _, _, _, .cons t a v es x ms h1 h2, _, h' => by
    cases h' with
    | cons _ _ _ _ x' xs' g1 g2 => rw [doc_fun h1 g1, docEntries_fun h2 g2]
termination_by structural _ _ _ h => h
theorem docFields_fun {k : Bool} : ∀ {ty : TyId} {d : TyD} {fs : List (Bytes × JV)} {l : List (Bytes × FieldD)}
    {ms : List (Bytes × JTree)}, DocFields env k ty d fs l ms → ∀ {ms' : List (Bytes × JTree)}, DocFields env k ty d fs l ms' → ms = ms'
  | _, _, _, _, _, .nil ty d fs, _, h' => by cases h'; rfl
  | _, _, _, _, _, .shown ty d fs a f v x l ms h1 h2 h3 h4, _, h' => by
    cases h' with
    | shown _ _ _ _ _ v' x' _ ms' g1 g2 g3 g4 =>
      rw [h1] at g1
      injection g1 with g1
      subst g1
      rw [doc_fun h3 g3, docFields_fun h4 g4]
    | omitted _ _ _ _ _ v' _ ms' g1 g2 g3 g4 =>
      rw [h1] at g1
      injection g1 with g1
      subst g1
      exact absurd ⟨g2, g3⟩ h2
  | _, _, _, _, _, .omitted ty d fs a f v l ms h1 h2 h3 h4, _, h' => by
    cases h' with
    | shown _ _ _ _ _ v' x' _ ms' g1 g2 g3 g4 =>
      rw [h1] at g1
      injection g1 with g1
      subst g1
      exact absurd ⟨h2, h3⟩ g2
    | omitted _ _ _ _ _ v' _ ms' g1 g2 g3 g4 =>
      exact docFields_fun h4 g4
termination_by structural _ _ _ _ _ h => h
end

end Reflect.Json
