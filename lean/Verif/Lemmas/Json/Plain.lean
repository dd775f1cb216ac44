import Verif.Lemmas.Json.Back
/- Plain data comes back. -/
namespace Reflect.Json

variable {env : Env} {Q : Bytes → Prop} {T : TyId → Prop}

theorem freshFields_names {fs : List FieldD} {us : List (Bytes × JV)} (h : FreshFields env fs us) :
    us.map (·.1) = fs.map (·.name) := by
  induction fs generalizing us with
  | nil => cases h; rfl
  | cons f fs ih => cases h; simp [ih ‹_›]

theorem plainFields_names {fs : List FieldD} {us : List (Bytes × JV)} (h : PlainFields env Q fs us) :
    us.map (·.1) = fs.map (·.name) := by
  induction fs generalizing us with
  | nil => cases h; rfl
  | cons f fs ih => cases h; simp [ih ‹_›]

mutual
theorem plain_back (hn : env.Named) (hT : env.Closed T) (ho : env.Ordinary Q T) : ∀ {ty : TyId} {v : JV}, Plain env Q ty v →
    ∀ {u : JV}, T ty → Fresh env ty u → Back env Q false ty u v
  | _, _, .bool ty d b h1 h2, u, _, _ => Back.bool ty d u b h1 h2
  | _, _, .int ty d i h1 h2 h3 h4, u, _, _ => Back.int ty d u i h1 h2 h3 h4
  | _, _, .flt ty d x h1 h2 h3 h4, u, _, _ => Back.flt ty d u x h1 h2 h3 h4
  | _, _, .str ty d s h1 h2 h3, u, _, _ => Back.str ty d u s h1 h2 h3
  | _, _, .null ty d t h, u, _, _ => Back.null ty d t u h
  | _, _, .ptr ty d t v h1 h2 h3, u, ht, hf => by
    have htt := hT.ptr ty d t ht h1
    obtain ⟨e, sh, he⟩ := hT.kind t htt
    obtain ⟨g1, u', g2, g3⟩ := ho.make t e htt he.1
    have hu : u = .null := by
      cases hf <;> first | rfl | (cases (has_unique h1 ‹env.Has _ _ _›).2; done)
    rw [hu]
    exact Back.ptrNew ty d t e u' v h1 h2 he.1 g1 g2 (plain_back hn hT ho h3 htt g3)
  | _, _, .list ty d t vs h1 h2, u, ht, hf => by
    have hu : u = .list [] := by
      cases hf <;> first | rfl | (cases (has_unique h1 ‹env.Has _ _ _›).2; done)
    rw [hu]
    exact Back.list ty d t vs h1 (plainElems_back hn hT ho h2 (hT.list ty d t ht h1))
  | _, _, .map ty d t m h1 h2 h3, u, ht, hf => by
    have hu : u = .map [] := by
      cases hf <;> first | rfl | (cases (has_unique h1 ‹env.Has _ _ _›).2; done)
    rw [hu]
    exact Back.map ty d t m h1 h2 (ho.order ty d t _ ht h1) (plainEntries_back hn hT ho h3 (hT.map ty d t ht h1))
  | _, _, .obj ty d vs h1 h2, u, ht, hf => by
    have hu : ∃ us, u = .obj us ∧ FreshFields env d.fields us := by
      cases hf with
      | obj _ d' us h' h'' =>
        obtain ⟨e, _⟩ := has_unique h1 ‹env.Has _ _ _›
        subst e
        exact ⟨_, rfl, ‹_›⟩
      | _ => cases (has_unique h1 ‹env.Has _ _ _›).2
    obtain ⟨us, rfl, hfs⟩ := hu
    have hnd := hn ty d h1.1
    refine Back.obj ty d us vs h1 (hT.keys ty d ht h1) hnd (by rw [plainFields_names h2]; exact hnd) ?_ ?_
    · intro f hf _
      rw [plainFields_names h2]
      exact List.mem_map.mpr ⟨f, hf, rfl⟩
    · exact plainFields_back hn hT ho h2 ht h1 (fun f hf => hf) hfs
termination_by structural _ _ h => h
theorem plainElems_back (hn : env.Named) (hT : env.Closed T) (ho : env.Ordinary Q T) : ∀ {t : TyId} {vs : List JV},
    PlainElems env Q t vs → T t → BackElems env Q false t vs
  | _, _, .nil t, _ => BackElems.nil t
  | _, _, .cons t v vs h1 h2, ht => by
    obtain ⟨e, sh, he⟩ := hT.kind t ht
    obtain ⟨_, u', g2, g3⟩ := ho.make t e ht he.1
    exact BackElems.cons t e u' v vs he.1 g2 (plain_back hn hT ho h1 ht g3) (plainElems_back hn hT ho h2 ht)
termination_by structural _ _ h => h
theorem plainEntries_back (hn : env.Named) (hT : env.Closed T) (ho : env.Ordinary Q T) : ∀ {t : TyId} {m : List (Bytes × JV)},
    PlainEntries env Q t m → T t → BackEntries env Q false t m
  | _, _, .nil t, _ => BackEntries.nil t
  | _, _, .cons t k v m hk h1 h2, ht => by
    obtain ⟨e, sh, he⟩ := hT.kind t ht
    obtain ⟨_, u', g2, g3⟩ := ho.make t e ht he.1
    exact BackEntries.cons t e u' k v m he.1 g2 hk (plain_back hn hT ho h1 ht g3) (plainEntries_back hn hT ho h2 ht)
termination_by structural _ _ h => h
theorem plainFields_back (hn : env.Named) (hT : env.Closed T) (ho : env.Ordinary Q T) : ∀ {fs : List FieldD}
    {vs : List (Bytes × JV)}, PlainFields env Q fs vs → ∀ {ty : TyId} {d : TyD} {us : List (Bytes × JV)}, T ty →
    env.Has ty d .object → (∀ f ∈ fs, f ∈ d.fields) → FreshFields env fs us → BackFields env Q false ty d us vs
  | _, _, .nil, ty, d, us, _, _, _, hf => by
    cases hf; exact BackFields.nil ty d
  | _, _, .cons f v fs vs h1 h2, ty, d, us, ht, hd, hsub, hf => by
    cases hf with
    | cons _ u _ us' g1 g2 =>
      obtain ⟨a, k1, k2, k3⟩ := ho.fields ty d f ht hd (hsub f (by simp))
      refine BackFields.shown ty d f a u v us' vs (hsub f (by simp)) k1 k2 ?_ ?_ ?_
      · rintro ⟨h, _⟩
        rcases h with h | h
        · cases h
        · exact k3 h
      · exact plain_back hn hT ho h1 (hT.field ty d f ht hd (hsub f (by simp)) (by rw [k1]; simp)) g1
      · exact plainFields_back hn hT ho h2 ht hd (fun f hf => hsub f (by simp [hf])) g2
termination_by structural _ _ h => h
end

end Reflect.Json
