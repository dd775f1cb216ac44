import Verif.Lemmas.Json.Complete
import Verif.Lemmas.Json.LoadParse
import Verif.Spec.JsonBack
/- A value that comes back stands for a document whose loading gives the value. -/
namespace Reflect.Json

variable {env : Env} {Q : Bytes → Prop} {compact : Bool}

/-! ### Maps and objects as association lists -/

theorem get_mapSet (m : List (Bytes × JV)) (k k' : Bytes) (v : JV) (h : Ordered m) :
    Assoc.get (mapSet m k v) k' = if k = k' then some v else Assoc.get m k' := by
  induction m with
  | nil =>
    unfold mapSet
    simp only [Assoc.get]
  | cons p m ih =>
    obtain ⟨l, u⟩ := p
    have ho : Ordered m := (List.pairwise_cons.mp h).2
    unfold mapSet
    split
    · rename_i e
      subst e
      simp only [Assoc.get]
      split <;> rfl
    · split
      · simp only [Assoc.get]
      · simp only [Assoc.get]
        rw [ih ho]
        split
        · rename_i e1 e2 e3
          subst e3
          rw [if_neg e1]
        · rfl

theorem mapSet_keys (m : List (Bytes × JV)) (k : Bytes) (v : JV) : ∀ a ∈ (mapSet m k v).map (·.1), a = k ∨ a ∈ m.map (·.1) := by
  induction m with
  | nil => intro a ha; unfold mapSet at ha; simp at ha; exact Or.inl ha
  | cons p m ih =>
    obtain ⟨l, u⟩ := p
    intro a ha
    unfold mapSet at ha
    split at ha
    · rename_i e
      subst e
      right; simpa using ha
    · split at ha
      · simpa using ha
      · simp only [List.map_cons, List.mem_cons] at ha
        rcases ha with ha | ha
        · right; simp [ha]
        · rcases ih a ha with h | h
          · exact Or.inl h
          · right; simp only [List.map_cons, List.mem_cons]; exact Or.inr h

theorem mapSet_ordered (m : List (Bytes × JV)) (k : Bytes) (v : JV) (h : Ordered m) : Ordered (mapSet m k v) := by
  induction m with
  | nil => unfold mapSet; simp [Ordered]
  | cons p m ih =>
    obtain ⟨l, u⟩ := p
    obtain ⟨h1, h2⟩ := List.pairwise_cons.mp h
    unfold mapSet
    split
    · rename_i e; subst e; exact List.pairwise_cons.mpr ⟨h1, h2⟩
    · rename_i e
      split
      · rename_i hlt
        refine List.pairwise_cons.mpr ⟨?_, h⟩
        intro b hb
        rcases List.mem_cons.mp hb with hb | hb
        · rw [hb]; exact hlt
        · exact bytesLt_trans hlt (h1 b hb)
      · rename_i hlt
        refine List.pairwise_cons.mpr ⟨?_, ih h2⟩
        intro b hb
        rcases mapSet_keys m k v b hb with hb | hb
        · rw [hb]
          rcases bytesLt_total k l with h | h | h
          · exact absurd h hlt
          · exact absurd h e
          · exact h
        · exact h1 b hb

theorem ordered_head {k : Bytes} {v : JV} {m : List (Bytes × JV)} (h : Ordered ((k, v) :: m)) : Assoc.get m k = none := by
  rw [Assoc.get_none_iff]
  intro hk
  have := (List.pairwise_cons.mp h).1 k hk
  simp only at this
  rw [bytesLt_irrefl] at this
  cases this

/-- maps with the same contents are the same -/
theorem ordered_ext : ∀ {m m' : List (Bytes × JV)}, Ordered m → Ordered m' → (∀ k, Assoc.get m k = Assoc.get m' k) → m = m' := by
  intro m
  induction m with
  | nil =>
    intro m' _ _ h
    cases m' with
    | nil => rfl
    | cons p m' =>
      obtain ⟨k, v⟩ := p
      have := h k
      simp [Assoc.get] at this
  | cons p m ih =>
    obtain ⟨k, v⟩ := p
    intro m' h1 h2 h
    cases m' with
    | nil => have := h k; simp [Assoc.get] at this
    | cons q m' =>
      obtain ⟨l, u⟩ := q
      have key : k = l := by
        rcases bytesLt_total k l with hlt | he | hlt
        · have e1 := h k
          simp only [Assoc.get, if_true] at e1
          have hne : ¬ l = k := by intro e; rw [e, bytesLt_irrefl] at hlt; cases hlt
          rw [if_neg hne] at e1
          have hm : k ∈ m'.map (·.1) := by
            have := (Assoc.get_isSome_iff (m := m') (k := k)).mp (by rw [← e1]; rfl)
            exact this
          have := (List.pairwise_cons.mp h2).1 k hm
          simp only at this
          rw [bytesLt_asymm hlt] at this; cases this
        · exact he
        · have e1 := h l
          simp only [Assoc.get, if_true] at e1
          have hne : ¬ k = l := by intro e; rw [e, bytesLt_irrefl] at hlt; cases hlt
          rw [if_neg hne] at e1
          have hm : l ∈ m.map (·.1) := by
            have := (Assoc.get_isSome_iff (m := m) (k := l)).mp (by rw [e1]; rfl)
            exact this
          have := (List.pairwise_cons.mp h1).1 l hm
          simp only at this
          rw [bytesLt_asymm hlt] at this; cases this
      subst key
      have hv := h k
      simp only [Assoc.get, if_true] at hv
      injection hv with hv
      subst hv
      rw [ih (List.pairwise_cons.mp h1).2 (List.pairwise_cons.mp h2).2 (fun a => ?_)]
      by_cases ha : k = a
      · subst ha; rw [ordered_head h1, ordered_head h2]
      · have := h a
        simp only [Assoc.get] at this
        rw [if_neg ha, if_neg ha] at this
        exact this

theorem objSet_keys (m : List (Bytes × JV)) (k : Bytes) (v : JV) : (objSet m k v).map (·.1) = m.map (·.1) := by
  induction m with
  | nil => rfl
  | cons p m ih =>
    obtain ⟨l, u⟩ := p
    unfold objSet
    split
    · rfl
    · simp [ih]

theorem get_objSet (m : List (Bytes × JV)) (k k' : Bytes) (v : JV) :
    Assoc.get (objSet m k v) k' = if k = k' ∧ k ∈ m.map (·.1) then some v else Assoc.get m k' := by
  induction m with
  | nil => simp [objSet, Assoc.get]
  | cons p m ih =>
    obtain ⟨l, u⟩ := p
    unfold objSet
    split
    · rename_i e
      subst e
      simp only [Assoc.get]
      by_cases h : l = k'
      · subst h; simp
      · simp [h]
    · rename_i e
      simp only [Assoc.get]
      rw [ih]
      by_cases h : l = k'
      · subst h
        rw [if_pos rfl, if_pos rfl, if_neg]
        rintro ⟨e2, _⟩
        exact e e2.symm
      · rw [if_neg h, if_neg h]
        have hlk : ¬ k = l := fun e2 => e e2.symm
        have hmem : k ∈ ((l, u) :: m).map (·.1) ↔ k ∈ m.map (·.1) := by
          rw [List.map_cons, List.mem_cons]
          exact ⟨fun h => h.resolve_left hlk, Or.inr⟩
        by_cases hc : k = k' ∧ k ∈ m.map (·.1)
        · rw [if_pos hc, if_pos ⟨hc.1, hmem.mpr hc.2⟩]
        · rw [if_neg hc, if_neg (fun hh => hc ⟨hh.1, hmem.mp hh.2⟩)]

/-- objects with the same fields in the same order and the same contents are the same -/
theorem fields_ext : ∀ {m m' : List (Bytes × JV)}, m.map (·.1) = m'.map (·.1) → (m.map (·.1)).Nodup →
    (∀ k, Assoc.get m k = Assoc.get m' k) → m = m' := by
  intro m
  induction m with
  | nil => intro m' h _ _; cases m' with
    | nil => rfl
    | cons p m' => cases h
  | cons p m ih =>
    obtain ⟨k, v⟩ := p
    intro m' hk hn h
    cases m' with
    | nil => cases hk
    | cons q m' =>
      obtain ⟨l, u⟩ := q
      simp only [List.map_cons] at hk hn
      injection hk with k1 k2
      subst k1
      obtain ⟨n1, n2⟩ := List.nodup_cons.mp hn
      have hv := h k
      simp only [Assoc.get, if_true] at hv
      injection hv with hv
      subst hv
      rw [ih k2 n2 (fun a => ?_)]
      by_cases ha : k = a
      · subst ha
        rw [(Assoc.get_none_iff (m := m) (k := k)).mpr n1, (Assoc.get_none_iff (m := m') (k := k)).mpr (by rw [← k2]; exact n1)]
      · have := h a
        simp only [Assoc.get] at this
        rw [if_neg ha, if_neg ha] at this
        exact this

/-! ### The document of a value that comes back -/

/-- what is to be shown of a value, an element or an entry -/
def Comes (env : Env) (Q : Bytes → Prop) (compact : Bool) (ty : TyId) (u v : JV) : Prop :=
  ∃ x, Doc env compact ty v x ∧ Load env ty u x v ∧ (∀ s ∈ x.strs, Q s) ∧ (v.isNull = false → x ≠ .null)

/-- what is to be shown of a field -/
def ComesField (env : Env) (Q : Bytes → Prop) (compact : Bool) (ty : TyId) (d : TyD) (us vs : List (Bytes × JV))
    (f : FieldD) (a : Bytes) : Prop :=
  ∃ u v, Assoc.get us f.name = some u ∧ Assoc.get vs f.name = some v ∧
    (((compact = true ∨ env.Skips ty d a) ∧ Empty env f.type v ∧ u = v) ∨
      (Q a ∧ ¬ ((compact = true ∨ env.Skips ty d a) ∧ Empty env f.type v) ∧ Comes env Q compact f.type u v))

theorem nodup_name {fs : List FieldD} (h : (fs.map (·.name)).Nodup) {f g : FieldD} (hf : f ∈ fs) (hg : g ∈ fs)
    (e : f.name = g.name) : f = g := by
  induction fs with
  | nil => cases hf
  | cons p fs ih =>
    simp only [List.map_cons] at h
    obtain ⟨h1, h2⟩ := List.nodup_cons.mp h
    rcases List.mem_cons.mp hf with hf' | hf' <;> rcases List.mem_cons.mp hg with hg' | hg'
    · rw [hf', hg']
    · exact absurd (List.mem_map.mpr ⟨g, hg', by rw [← e, hf']⟩) h1
    · exact absurd (List.mem_map.mpr ⟨f, hf', by rw [e, hg']⟩) h1
    · exact ih h2 hf' hg'

theorem entries_load {t : TyId} {m : List (Bytes × JV)}
    (hm : ∀ p ∈ m, Q p.1 ∧ ∃ e u, env.types[t]? = some e ∧ e.make = some u ∧ Comes env Q compact t u p.2) :
    ∀ (ks : List Bytes), (∀ k ∈ ks, k ∈ m.map (·.1)) → ∀ (m0 : List (Bytes × JV)), Ordered m0 →
    ∃ es ms m', es.map (·.1) = ks ∧ (∀ p ∈ es, Assoc.get m p.1 = some p.2) ∧ DocEntries env compact t es ms ∧
      LoadEntries env t ms m0 m' ∧ (∀ s ∈ JTree.strsM ms, Q s) ∧ Ordered m' ∧
      (∀ k, Assoc.get m' k = if k ∈ ks then Assoc.get m k else Assoc.get m0 k) := by
  intro ks
  induction ks with
  | nil =>
    intro _ m0 ho
    exact ⟨[], [], m0, rfl, by simp, DocEntries.nil t, LoadEntries.nil t m0, by simp [JTree.strsM], ho, by simp⟩
  | cons k ks ih =>
    intro hk m0 ho
    have hs := (Assoc.get_isSome_iff (m := m) (k := k)).mpr (hk k (by simp))
    cases hv : Assoc.get m k with
    | none => rw [hv] at hs; cases hs
    | some v =>
      obtain ⟨q1, e, u, q2, q3, x, q4, q5, q6, _⟩ := hm (k, v) (Assoc.get_some_mem hv)
      obtain ⟨es, ms, m', h1, h2, h3, h4, h5, h6, h7⟩ := ih (fun a ha => hk a (by simp [ha])) (mapSet m0 k v)
        (mapSet_ordered m0 k v ho)
      refine ⟨(k, v) :: es, (k, x) :: ms, m', by simp [h1], ?_, DocEntries.cons t k v es x ms q4 h3,
        LoadEntries.cons t e u k x ms v m0 m' q2 q3 q5 h4, ?_, h6, ?_⟩
      · intro p hp
        rcases List.mem_cons.mp hp with e | hp
        · rw [e]; exact hv
        · exact h2 p hp
      · intro s hs
        simp only [JTree.strsM, List.cons_append, List.mem_cons, List.mem_append] at hs
        rcases hs with hs | hs | hs
        · rw [hs]; exact q1
        · exact q6 s hs
        · exact h5 s hs
      · intro a
        rw [h7 a, get_mapSet _ _ _ _ ho]
        by_cases ha : a ∈ ks
        · rw [if_pos ha, if_pos (by simp [ha])]
        · rw [if_neg ha]
          by_cases hak : k = a
          · subst hak; rw [if_pos rfl, if_pos (by simp), hv]
          · rw [if_neg hak, if_neg]
            intro h
            rcases List.mem_cons.mp h with h | h
            · exact hak h.symm
            · exact ha h

theorem fields_load {ty : TyId} {d : TyD} {us vs : List (Bytes × JV)} (hnm : (d.fields.map (·.name)).Nodup) :
    ∀ (l : List (Bytes × FieldD)), (∀ p ∈ l, p.2 ∈ d.fields ∧ p.2.key = some p.1) → (l.map (·.1)).Nodup →
    (∀ p ∈ l, ComesField env Q compact ty d us vs p.2 p.1) → ∀ (hs : List (Bytes × JV)),
    (∀ p ∈ l, Assoc.get hs p.2.name = Assoc.get us p.2.name) →
    ∃ ms hs', DocFields env compact ty d vs l ms ∧ LoadMembers env d ms hs hs' ∧ (∀ s ∈ JTree.strsM ms, Q s) ∧
      hs'.map (·.1) = hs.map (·.1) ∧
      (∀ n, Assoc.get hs' n = if n ∈ l.map (·.2.name) then Assoc.get vs n else Assoc.get hs n) := by
  intro l
  induction l with
  | nil =>
    intro _ _ _ hs _
    exact ⟨[], hs, DocFields.nil ty d vs, LoadMembers.nil d hs, by simp [JTree.strsM], rfl, by simp⟩
  | cons p l ih =>
    obtain ⟨a, f⟩ := p
    intro hl hnd hcf hs hhs
    obtain ⟨hfm, hfk⟩ := hl (a, f) (by simp)
    simp only [List.map_cons] at hnd
    obtain ⟨hna, hnd⟩ := List.nodup_cons.mp hnd
    have hne : ∀ q ∈ l, q.2.name ≠ f.name := by
      intro q hq e
      obtain ⟨g1, g2⟩ := hl q (by simp [hq])
      have := nodup_name hnm g1 hfm e
      rw [this, hfk] at g2
      injection g2 with g2
      exact hna (List.mem_map.mpr ⟨q, hq, g2.symm⟩)
    have hnin : f.name ∉ l.map (·.2.name) := by
      intro h
      obtain ⟨q, hq, e⟩ := List.mem_map.mp h
      exact hne q hq e
    obtain ⟨u, v, e1, e2, hcase⟩ := hcf (a, f) (by simp)
    simp only at e1 e2 hfm hfk
    have hhf : Assoc.get hs f.name = some u := by rw [← e1]; exact hhs (a, f) (by simp)
    rcases hcase with ⟨c1, c2, c3⟩ | ⟨qa, hns, x, x1, x2, x3, _⟩
    · subst c3
      obtain ⟨ms, hs', h1, h2, h3, h4, h5⟩ := ih (fun q hq => hl q (by simp [hq])) hnd (fun q hq => hcf q (by simp [hq])) hs
        (fun q hq => hhs q (by simp [hq]))
      refine ⟨ms, hs', DocFields.omitted ty d vs a f u l ms e2 c1 c2 h1, h2, h3, h4, ?_⟩
      intro n
      rw [h5 n]
      by_cases hn : n ∈ l.map (·.2.name)
      · rw [if_pos hn, if_pos (by simp only [List.map_cons, List.mem_cons]; exact Or.inr hn)]
      · rw [if_neg hn]
        by_cases hfn : n = f.name
        · rw [if_pos (by simp only [List.map_cons, List.mem_cons]; exact Or.inl hfn), hfn, hhf, e2]
        · rw [if_neg]
          intro h
          simp only [List.map_cons, List.mem_cons] at h
          exact h.elim hfn hn
    · obtain ⟨ms, hs', h1, h2, h3, h4, h5⟩ := ih (fun q hq => hl q (by simp [hq])) hnd (fun q hq => hcf q (by simp [hq]))
        (objSet hs f.name v) (by
          intro q hq
          rw [get_objSet, if_neg (fun h => hne q hq h.1.symm)]
          exact hhs q (by simp [hq]))
      refine ⟨(a, x) :: ms, hs', DocFields.shown ty d vs a f v x l ms e2 hns x1 h1,
        LoadMembers.known d a f x ms u v hs hs' hfm hfk hhf x2 h2, ?_, by rw [h4, objSet_keys], ?_⟩
      · intro s hs
        simp only [JTree.strsM, List.cons_append, List.mem_cons, List.mem_append] at hs
        rcases hs with hs | hs | hs
        · rw [hs]; exact qa
        · exact x3 s hs
        · exact h3 s hs
      · intro n
        rw [h5 n]
        by_cases hn : n ∈ l.map (·.2.name)
        · rw [if_pos hn, if_pos (by simp only [List.map_cons, List.mem_cons]; exact Or.inr hn)]
        · rw [if_neg hn, get_objSet]
          by_cases hfn : n = f.name
          · rw [if_pos ⟨hfn.symm, (Assoc.get_isSome_iff (m := hs) (k := f.name)).mp (by rw [hhf]; rfl)⟩,
              if_pos (by simp only [List.map_cons, List.mem_cons]; exact Or.inl hfn), hfn, e2]
          · rw [if_neg (fun h => hfn h.1.symm), if_neg]
            intro h
            simp only [List.map_cons, List.mem_cons] at h
            exact h.elim hfn hn

mutual
theorem back_comes : ∀ {ty : TyId} {u v : JV}, Back env Q compact ty u v → Comes env Q compact ty u v
  | _, _, _, .bool ty d u b h1 h2 => ⟨.bool b, Doc.bool ty d b h1 h2, Load.bool ty d u b h1 h2, by simp [JTree.strs], by simp⟩
  | _, _, _, .int ty d u i h1 h2 h3 h4 =>
    ⟨.int (decText i), Doc.int ty d i h1 h2, Load.int ty d u _ i h1 h2 (decText_val ⟨h3, h4⟩), by simp [JTree.strs], by simp⟩
  | _, _, _, .flt ty d u x h1 h2 h3 h4 =>
    ⟨.float (env.fmtG x), Doc.flt ty d x h1 h2 h3, Load.float ty d u _ x h1 h2 h4, by simp [JTree.strs], by simp⟩
  | _, _, _, .str ty d u s h1 h2 h3 =>
    ⟨.str s, Doc.str ty d s h1 h2, Load.str ty d u s h1 h2, by simpa [JTree.strs] using h3, by simp⟩
  | _, _, _, .null ty d t u h => ⟨.null, Doc.null ty d t h, Load.ptrNull ty d t u h, by simp [JTree.strs], by simp [JV.isNull]⟩
  | _, _, _, .ptr ty d t u v h1 h2 h3 => by
    obtain ⟨x, g1, g2, g3, g4⟩ := back_comes h3
    exact ⟨x, Doc.ptr ty d t v x h1 g1, Load.ptr ty d t u v x h1 (g4 h2) g2, g3, fun _ => g4 h2⟩
  | _, _, _, .ptrNew ty d t e u v h1 h2 e1 e2 e3 h3 => by
    obtain ⟨x, g1, g2, g3, g4⟩ := back_comes h3
    exact ⟨x, Doc.ptr ty d t v x h1 g1, Load.ptrNew ty d t e u v x h1 (g4 h2) e1 e2 e3 g2, g3, fun _ => g4 h2⟩
  | _, _, _, .list ty d t vs h1 h2 => by
    obtain ⟨xs, g1, g2, g3⟩ := backElems_comes h2
    exact ⟨.arr xs, Doc.list ty d t vs xs h1 g1, by simpa using Load.list ty d t [] vs xs h1 g2,
      by simpa [JTree.strs] using g3, by simp⟩
  | _, _, _, .map ty d t m h1 h2 h3 h4 => by
    obtain ⟨es, ms, m', g1, g2, g3, g4, g5, g6, g7⟩ := entries_load (backEntries_comes h4) (d.order (m.map (·.1)))
      (fun k hk => h3.subset hk) [] (by simp [Ordered])
    have : m' = m := by
      refine ordered_ext g6 h2 (fun k => ?_)
      rw [g7 k]
      by_cases hk : k ∈ d.order (m.map (·.1))
      · rw [if_pos hk]
      · rw [if_neg hk, (Assoc.get_none_iff (m := m) (k := k)).mpr (fun h => hk (h3.symm.subset h))]; rfl
    subst this
    exact ⟨.obj ms, Doc.map ty d t m' es ms h1 g1 g2 g3, Load.map ty d t ms [] m' h1 g4, by simpa [JTree.strs] using g5, by simp⟩
  | _, _, _, .obj ty d us vs h1 h2 h3 h4 h5 h6 => by
    obtain ⟨k1, k2, k3⟩ := backFields_comes h6 h3 h4
    obtain ⟨l, hl, _⟩ := listing_of d
    have hmem : ∀ p ∈ l, p.2 ∈ d.fields ∧ p.2.key = some p.1 := by
      intro p hp
      obtain ⟨l1, l2, e1, e2, _⟩ := hl.2.2 p hp
      exact ⟨by rw [e1]; simp, e2⟩
    obtain ⟨ms, hs', g1, g2, g3, g4, g5⟩ := fields_load h3 l hmem (hl.1.nodup_iff.mpr h2)
      (fun p hp => k2 p.2 p.1 (hmem p hp).1 (hmem p hp).2 (h5 p.2 (hmem p hp).1 (by rw [(hmem p hp).2]; simp))) us
      (fun _ _ => rfl)
    have : hs' = vs := by
      refine fields_ext (g4.trans k1) (by rw [g4, k1]; exact h4) (fun n => ?_)
      rw [g5 n]
      by_cases hn : n ∈ l.map (·.2.name)
      · rw [if_pos hn]
      · rw [if_neg hn]
        refine k3 n (fun f hf hfn => ?_)
        cases hk : f.key with
        | none => rfl
        | some a =>
          exfalso
          have ha : a ∈ d.keys := List.mem_filterMap.mpr ⟨f, hf, hk⟩
          obtain ⟨p, hp, e⟩ := List.mem_map.mp (hl.1.symm.subset ha)
          have e2 : p.2.key = some a := by rw [← e]; exact (hmem p hp).2
          obtain ⟨m1, m2, e3, e4, e5⟩ := hl.2.2 p hp
          -- two fields with one key are the same
          have : f = p.2 := by
            have hnd := h2
            unfold TyD.keys at hnd
            obtain ⟨q, hq⟩ : ∃ q, q = p.2 := ⟨_, rfl⟩
            rw [← hq] at e2 ⊢
            have hqm : q ∈ d.fields := by rw [hq]; exact (hmem p hp).1
            clear hq e e3 e4 e5 g1 g2 g3 g4 g5 k1 k2 k3 hmem hl hn hfn h6 h5 h3 h1 ha hp
            revert hnd hf hqm
            generalize d.fields = fl
            intro hf hnd hqm
            induction fl with
            | nil => cases hf
            | cons r fl ih =>
              cases hr : r.key with
              | none =>
                rw [List.filterMap_cons_none hr] at hnd
                have hfr : f ≠ r := by intro e; rw [e, hr] at hk; cases hk
                have hqr : q ≠ r := by intro e; rw [e, hr] at e2; cases e2
                exact ih ((List.mem_cons.mp hf).resolve_left hfr) hnd ((List.mem_cons.mp hqm).resolve_left hqr)
              | some b =>
                rw [List.filterMap_cons_some hr] at hnd
                obtain ⟨n1, n2⟩ := List.nodup_cons.mp hnd
                rcases List.mem_cons.mp hf with hf' | hf' <;> rcases List.mem_cons.mp hqm with hg' | hg'
                · rw [hf', hg']
                · rw [hf', hr] at hk; injection hk with hk; subst hk
                  exact absurd (List.mem_filterMap.mpr ⟨q, hg', e2⟩) n1
                · rw [hg', hr] at e2; injection e2 with e2; subst e2
                  exact absurd (List.mem_filterMap.mpr ⟨f, hf', hk⟩) n1
                · exact ih hf' n2 hg'
          exact hn (List.mem_map.mpr ⟨p, hp, by rw [← this, hfn]⟩)
    subst this
    exact ⟨.obj ms, Doc.obj ty d hs' l ms h1 hl g1, Load.obj ty d ms us hs' h1 g2, by simpa [JTree.strs] using g3, by simp⟩
termination_by structural _ _ _ h => h
theorem backElems_comes : ∀ {t : TyId} {vs : List JV}, BackElems env Q compact t vs →
    ∃ xs, DocElems env compact t vs xs ∧ LoadElems env t xs vs ∧ (∀ s ∈ JTree.strsL xs, Q s)
  | _, _, .nil t => ⟨[], DocElems.nil t, LoadElems.nil t, by simp [JTree.strsL]⟩
  | _, _, .cons t e u v vs h1 h2 h3 h4 => by
    obtain ⟨x, g1, g2, g3, _⟩ := back_comes h3
    obtain ⟨xs, k1, k2, k3⟩ := backElems_comes h4
    refine ⟨x :: xs, DocElems.cons t v vs x xs g1 k1, LoadElems.cons t e u x xs v vs h1 h2 g2 k2, ?_⟩
    intro s hs
    simp only [JTree.strsL, List.mem_append] at hs
    exact hs.elim (g3 s) (k3 s)
termination_by structural _ _ h => h
theorem backEntries_comes : ∀ {t : TyId} {m : List (Bytes × JV)}, BackEntries env Q compact t m →
    ∀ p ∈ m, Q p.1 ∧ ∃ e u, env.types[t]? = some e ∧ e.make = some u ∧ Comes env Q compact t u p.2
  | _, _, .nil t => by intro p hp; cases hp
  | _, _, .cons t e u k v m h1 h2 h3 h4 h5 => by
    have g := back_comes h4
    have g2 := backEntries_comes h5
    intro p hp
    rcases List.mem_cons.mp hp with e' | hp
    · rw [e']; exact ⟨h3, e, u, h1, h2, g⟩
    · exact g2 p hp
termination_by structural _ _ h => h
theorem backFields_comes : ∀ {ty : TyId} {d : TyD} {us vs : List (Bytes × JV)}, BackFields env Q compact ty d us vs →
    (d.fields.map (·.name)).Nodup → (vs.map (·.1)).Nodup →
    us.map (·.1) = vs.map (·.1) ∧
    (∀ f a, f ∈ d.fields → f.key = some a → f.name ∈ vs.map (·.1) → ComesField env Q compact ty d us vs f a) ∧
    (∀ n, (∀ f ∈ d.fields, f.name = n → f.key = none) → Assoc.get us n = Assoc.get vs n)
  | _, _, _, _, .nil ty d, _, _ => ⟨rfl, fun f a _ _ h => (by cases h), fun _ _ => rfl⟩
  | _, _, _, _, .hidden ty d n v us vs h1 h2, hn, hv => by
    simp only [List.map_cons] at hv
    obtain ⟨v1, v2⟩ := List.nodup_cons.mp hv
    obtain ⟨g1, g2, g3⟩ := backFields_comes h2 hn v2
    refine ⟨by simp [g1], ?_, ?_⟩
    · intro f a hf hk hm
      have hne : ¬ n = f.name := by intro e; rw [h1 f hf e.symm] at hk; cases hk
      simp only [List.map_cons, List.mem_cons] at hm
      obtain ⟨u', v', e1, e2, e3⟩ := g2 f a hf hk (hm.resolve_left (fun e => hne e.symm))
      exact ⟨u', v', by rw [Assoc.get_cons, if_neg hne]; exact e1, by rw [Assoc.get_cons, if_neg hne]; exact e2, e3⟩
    · intro n' hn'
      rw [Assoc.get_cons, Assoc.get_cons, g3 n' hn']
  | _, _, _, _, .omitted ty d f a v us vs h1 h2 h3 h4 h5, hn, hv => by
    simp only [List.map_cons] at hv
    obtain ⟨v1, v2⟩ := List.nodup_cons.mp hv
    obtain ⟨g1, g2, g3⟩ := backFields_comes h5 hn v2
    refine ⟨by simp [g1], ?_, ?_⟩
    · intro f' a' hf hk hm
      simp only [List.map_cons, List.mem_cons] at hm
      by_cases hne : f.name = f'.name
      · have := nodup_name hn h1 hf hne
        subst this
        rw [h2] at hk; injection hk with hk; subst hk
        exact ⟨v, v, by rw [Assoc.get_cons, if_pos rfl], by rw [Assoc.get_cons, if_pos rfl], Or.inl ⟨h3, h4, rfl⟩⟩
      · obtain ⟨u', v', e1, e2, e3⟩ := g2 f' a' hf hk (hm.resolve_left (fun e => hne e.symm))
        exact ⟨u', v', by rw [Assoc.get_cons, if_neg hne]; exact e1, by rw [Assoc.get_cons, if_neg hne]; exact e2, e3⟩
    · intro n' hn'
      rw [Assoc.get_cons, Assoc.get_cons, g3 n' hn']
  | _, _, _, _, .shown ty d f a u v us vs h1 h2 h3 h4 h5 h6, hn, hv => by
    simp only [List.map_cons] at hv
    obtain ⟨v1, v2⟩ := List.nodup_cons.mp hv
    have gc := back_comes h5
    obtain ⟨g1, g2, g3⟩ := backFields_comes h6 hn v2
    refine ⟨by simp [g1], ?_, ?_⟩
    · intro f' a' hf hk hm
      simp only [List.map_cons, List.mem_cons] at hm
      by_cases hne : f.name = f'.name
      · have := nodup_name hn h1 hf hne
        subst this
        rw [h2] at hk; injection hk with hk; subst hk
        exact ⟨u, v, by rw [Assoc.get_cons, if_pos rfl], by rw [Assoc.get_cons, if_pos rfl], Or.inr ⟨h3, h4, gc⟩⟩
      · obtain ⟨u', v', e1, e2, e3⟩ := g2 f' a' hf hk (hm.resolve_left (fun e => hne e.symm))
        exact ⟨u', v', by rw [Assoc.get_cons, if_neg hne]; exact e1, by rw [Assoc.get_cons, if_neg hne]; exact e2, e3⟩
    · intro n' hn'
      have hne : ¬ f.name = n' := by intro e; rw [hn' f h1 e] at h2; cases h2
      rw [Assoc.get_cons, Assoc.get_cons, if_neg hne, if_neg hne, g3 n' hn']
termination_by structural _ _ _ _ h => h
end

end Reflect.Json
