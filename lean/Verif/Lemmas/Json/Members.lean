import Verif.Lemmas.Json.Trip
import Verif.Lemmas.Json.DocFun
/- The members of a printed object. -/
namespace Reflect.Json

variable {env : Env} {k : Bool}

theorem key_unique {fs : List FieldD} (h : (fs.filterMap FieldD.key).Nodup) {f g : FieldD} {a : Bytes} (hf : f ∈ fs) (hg : g ∈ fs)
    (kf : f.key = some a) (kg : g.key = some a) : f = g := by
  induction fs with
  | nil => cases hf
  | cons p fs ih =>
    have mem : ∀ {q : FieldD}, q ∈ fs → q.key = some a → a ∈ fs.filterMap FieldD.key :=
      fun hq hk => List.mem_filterMap.mpr ⟨_, hq, hk⟩
    rw [List.filterMap_cons] at h
    cases hp : p.key with
    | none =>
      rw [hp] at h
      simp only at h
      rcases List.mem_cons.mp hf with rfl | hf
      · rw [hp] at kf; cases kf
      rcases List.mem_cons.mp hg with rfl | hg
      · rw [hp] at kg; cases kg
      exact ih h hf hg
    | some b =>
      rw [hp] at h
      simp only [List.nodup_cons] at h
      rcases List.mem_cons.mp hf with hf | hf
      · rcases List.mem_cons.mp hg with hg | hg
        · rw [hf, hg]
        · rw [← hf, kf] at hp; injection hp with hp; subst hp
          exact absurd (mem hg kg) h.1
      · rcases List.mem_cons.mp hg with hg | hg
        · rw [← hg, kg] at hp; injection hp with hp; subst hp
          exact absurd (mem hf kf) h.1
        · exact ih h.2 hf hg

theorem listing_mem {d : TyD} {l : List (Bytes × FieldD)} (h : d.Listing l) (hk : d.keys.Nodup) (a : Bytes) (f : FieldD) :
    (a, f) ∈ l ↔ f ∈ d.fields ∧ f.key = some a := by
  have last : ∀ {a : Bytes} {f : FieldD}, (a, f) ∈ l → f ∈ d.fields ∧ f.key = some a := by
    intro a f hm
    obtain ⟨l1, l2, e, h1, _⟩ := h.2.2 _ hm
    exact ⟨by rw [e]; simp, h1⟩
  constructor
  · exact last
  · rintro ⟨hf, hfk⟩
    have : a ∈ l.map (·.1) := h.1.mem_iff.mpr (List.mem_filterMap.mpr ⟨f, hf, hfk⟩)
    obtain ⟨⟨b, g⟩, hm, rfl⟩ := List.mem_map.mp this
    obtain ⟨hg, hgk⟩ := last hm
    rw [key_unique hk hf hg hfk hgk]
    exact hm

theorem strict_of_sorted {ks : List Bytes} (h : Sorted ks) (hn : ks.Nodup) : ks.Pairwise fun a b => bytesLt a b = true := by
  induction ks with
  | nil => exact .nil
  | cons a ks ih =>
    unfold Sorted at h
    rw [List.pairwise_cons] at h ⊢
    rw [List.nodup_cons] at hn
    refine ⟨fun b hb => ?_, ih h.2 hn.2⟩
    rcases bytesLt_total a b with hlt | he | hlt
    · exact hlt
    · subst he; exact absurd hb hn.1
    · rw [h.1 b hb] at hlt; cases hlt

theorem docFields_sub : ∀ {ty : TyId} {d : TyD} {fs : List (Bytes × JV)} {l : List (Bytes × FieldD)} {ms : List (Bytes × JTree)},
    DocFields env k ty d fs l ms → (ms.map (·.1)).Sublist (l.map (·.1))
  | _, _, _, _, _, .nil .. => .slnil
  | _, _, _, _, _, .shown _ _ _ _ _ _ _ _ _ _ _ _ h => by simpa using docFields_sub h
  | _, _, _, _, _, .omitted _ _ _ _ _ _ _ _ _ _ _ h => by simpa using (docFields_sub h).cons _

theorem docFields_mem : ∀ {ty : TyId} {d : TyD} {fs : List (Bytes × JV)} {l : List (Bytes × FieldD)} {ms : List (Bytes × JTree)},
    DocFields env k ty d fs l ms → ∀ (a : Bytes) (x : JTree), (a, x) ∈ ms ↔ ∃ f v, (a, f) ∈ l ∧ Assoc.get fs f.name = some v ∧
      ¬ ((k = true ∨ env.Skips ty d a) ∧ Empty env f.type v) ∧ Doc env k f.type v x
  | _, _, _, _, _, .nil .., a, x => by simp
  | _, _, _, _, _, .shown ty d fs b g v y l ms hg hne hd h, a, x => by
    constructor
    · intro hm
      rcases List.mem_cons.mp hm with e | hm
      · cases e
        exact ⟨g, v, by simp, hg, hne, hd⟩
      · obtain ⟨f, v', h1, h2⟩ := (docFields_mem h a x).mp hm
        exact ⟨f, v', by simp [h1], h2⟩
    · rintro ⟨f, v', h1, h2, h3, h4⟩
      rcases List.mem_cons.mp h1 with e | h1
      · cases e
        rw [hg] at h2
        injection h2 with h2
        subst h2
        rw [doc_fun h4 hd]
        simp
      · exact List.mem_cons_of_mem _ ((docFields_mem h a x).mpr ⟨f, v', h1, h2, h3, h4⟩)
  | _, _, _, _, _, .omitted ty d fs b g v l ms hg hs he h, a, x => by
    rw [docFields_mem h a x]
    constructor
    · rintro ⟨f, v', h1, h2⟩
      exact ⟨f, v', by simp [h1], h2⟩
    · rintro ⟨f, v', h1, h2, h3, h4⟩
      rcases List.mem_cons.mp h1 with e | h1
      · cases e
        rw [hg] at h2
        injection h2 with h2
        subst h2
        exact absurd ⟨hs, he⟩ h3
      · exact ⟨f, v', h1, h2, h3, h4⟩

theorem doc_obj_inv {ty : TyId} {d : TyD} {fs : List (Bytes × JV)} {x : JTree} (hd : env.Has ty d .object)
    (h : Doc env k ty (.obj fs) x) : ∃ l ms, x = .obj ms ∧ d.Listing l ∧ DocFields env k ty d fs l ms := by
  cases h with
  | obj _ d' _ l ms h1 h2 h3 =>
    obtain ⟨e, _⟩ := has_unique hd h1
    subst e
    exact ⟨l, ms, rfl, h2, h3⟩

/-- the keys of a type that has a parser are different -/
theorem good_keys (hn : env.Named) {c : PCache} (hc : Good env c) {ty : TyId} {d : TyD} (hd : env.Has ty d .object)
    (hs : (Assoc.get c ty).isSome) : d.keys.Nodup := by
  obtain ⟨st, _, _, _, h⟩ := good_get hc hd hs
  have h1 := (h rfl).1
  have hnm := hn ty d hd.1
  unfold TyD.keys
  revert h1 hnm
  generalize d.fields = fs
  clear h hd hs
  intro h1 hnm
  induction fs with
  | nil => exact List.nodup_nil
  | cons f fs ih =>
    simp only [List.map_cons, List.nodup_cons] at hnm
    have ih := ih (fun g hg => h1 g (by simp [hg])) hnm.2
    rw [List.filterMap_cons]
    cases hf : f.key with
    | none => exact ih
    | some a =>
      simp only [List.nodup_cons]
      refine ⟨?_, ih⟩
      intro hm
      obtain ⟨g, hg, hgk⟩ := List.mem_filterMap.mp hm
      have e1 := (h1 f (by simp) a hf).1
      have e2 := (h1 g (by simp [hg]) a hgk).1
      rw [e1] at e2
      injection e2 with e2
      exact hnm.1 (by rw [e2]; exact List.mem_map.mpr ⟨g, hg, rfl⟩)

end Reflect.Json
