import Verif.Lemmas.Json.Graph
import Verif.Lemmas.Json.Fed
/-
  Parsing into objects that no two pointers share is parsing into the tree they read as.
-/
namespace Reflect.Json

/-! ### what is owned -/

/-- `x` reads as `v`, meeting the objects `s` -/
def Own (h : GHeap) (x : GV) (v : JV) (s : List Nat) : Prop := ∃ d, h.reads d x = some v ∧ h.owns d x = s

def OwnL (h : GHeap) (xs : List GV) (vs : List JV) (s : List Nat) : Prop :=
  ∃ d, collect (h.reads d) xs = some vs ∧ xs.flatMap (h.owns d) = s

def OwnM (h : GHeap) (m : List (Bytes × GV)) (ws : List (Bytes × JV)) (s : List Nat) : Prop :=
  ∃ d, entries (h.reads d) m = some ws ∧ (m.flatMap fun p => h.owns d p.2) = s

theorem Own.frame {h h' : GHeap} {x : GV} {v : JV} {s : List Nat} (ho : Own h x v s)
    (hf : ∀ a ∈ s, h'.mem a = h.mem a) : Own h' x v s := by
  obtain ⟨d, h1, rfl⟩ := ho
  obtain ⟨h2, h3⟩ := reads_frame h h' d x hf
  exact ⟨d, by rw [h2, h1], h3⟩

theorem Own.unique {h : GHeap} {x : GV} {v v' : JV} {s s' : List Nat} (h1 : Own h x v s) (h2 : Own h x v' s') :
    v = v' ∧ s = s' := by
  obtain ⟨d, e1, rfl⟩ := h1
  obtain ⟨d', e2, rfl⟩ := h2
  rcases Nat.le_total d d' with hd | hd
  · obtain ⟨e3, e4⟩ := reads_mono h d x v e1 d' hd
    rw [e2] at e3
    exact ⟨(Option.some.inj e3).symm, e4.symm⟩
  · obtain ⟨e3, e4⟩ := reads_mono h d' x v' e2 d hd
    rw [e1] at e3
    exact ⟨Option.some.inj e3, e4⟩

theorem own_ptr {h : GHeap} {a : Nat} {v : JV} {s : List Nat} :
    Own h (.ptr a) v s ↔ ∃ w t, v = .ptr w ∧ s = a :: t ∧ Own h (h.mem a) w t := by
  constructor
  · rintro ⟨d, h1, rfl⟩
    cases d with
    | zero => simp [GHeap.reads] at h1
    | succ d =>
      simp only [GHeap.reads, Option.map_eq_some_iff] at h1
      obtain ⟨w, h2, rfl⟩ := h1
      exact ⟨w, _, rfl, rfl, d, h2, rfl⟩
  · rintro ⟨w, t, rfl, rfl, d, h2, rfl⟩
    exact ⟨d + 1, by simp [GHeap.reads, h2], rfl⟩

theorem own_list {h : GHeap} {xs : List GV} {v : JV} {s : List Nat} :
    Own h (.list xs) v s ↔ ∃ vs, v = .list vs ∧ OwnL h xs vs s := by
  constructor
  · rintro ⟨d, h1, rfl⟩
    cases d with
    | zero => simp [GHeap.reads] at h1
    | succ d =>
      simp only [GHeap.reads, Option.map_eq_some_iff] at h1
      obtain ⟨w, h2, rfl⟩ := h1
      exact ⟨w, rfl, d, h2, rfl⟩
  · rintro ⟨vs, rfl, d, h2, rfl⟩
    exact ⟨d + 1, by simp [GHeap.reads, h2], rfl⟩

theorem own_map {h : GHeap} {m : List (Bytes × GV)} {v : JV} {s : List Nat} :
    Own h (.map m) v s ↔ ∃ ws, v = .map ws ∧ OwnM h m ws s := by
  constructor
  · rintro ⟨d, h1, rfl⟩
    cases d with
    | zero => simp [GHeap.reads] at h1
    | succ d =>
      simp only [GHeap.reads, Option.map_eq_some_iff] at h1
      obtain ⟨w, h2, rfl⟩ := h1
      exact ⟨w, rfl, d, h2, rfl⟩
  · rintro ⟨vs, rfl, d, h2, rfl⟩
    exact ⟨d + 1, by simp [GHeap.reads, h2], rfl⟩

theorem own_obj {h : GHeap} {m : List (Bytes × GV)} {v : JV} {s : List Nat} :
    Own h (.obj m) v s ↔ ∃ ws, v = .obj ws ∧ OwnM h m ws s := by
  constructor
  · rintro ⟨d, h1, rfl⟩
    cases d with
    | zero => simp [GHeap.reads] at h1
    | succ d =>
      simp only [GHeap.reads, Option.map_eq_some_iff] at h1
      obtain ⟨w, h2, rfl⟩ := h1
      exact ⟨w, rfl, d, h2, rfl⟩
  · rintro ⟨vs, rfl, d, h2, rfl⟩
    exact ⟨d + 1, by simp [GHeap.reads, h2], rfl⟩

/-- the kind of a value is the kind of what it reads as -/
theorem own_kind {h : GHeap} {x : GV} {v : JV} {s : List Nat} (ho : Own h x v s) :
    (∀ vs, v = .list vs → ∃ xs, x = .list xs) ∧ (∀ m, v = .map m → ∃ y, x = .map y) ∧
    (∀ m, v = .obj m → ∃ y, x = .obj y) ∧ (∀ w, v = .ptr w → ∃ a, x = .ptr a) ∧ (v = .null → x = .null) ∧
    (∀ xs, x = .list xs → ∃ vs, v = .list vs) ∧ (∀ xs, x = .map xs → ∃ vs, v = .map vs) ∧
    (∀ xs, x = .obj xs → ∃ vs, v = .obj vs) ∧ (∀ a, x = .ptr a → ∃ w, v = .ptr w) ∧ (x = .null → v = .null) := by
  cases x with
  | ptr a =>
    obtain ⟨w, t, rfl, rfl, _⟩ := own_ptr.1 ho
    simp
  | list a =>
    obtain ⟨w, rfl, _⟩ := own_list.1 ho
    simp
  | map a =>
    obtain ⟨w, rfl, _⟩ := own_map.1 ho
    simp
  | obj a =>
    obtain ⟨w, rfl, _⟩ := own_obj.1 ho
    simp
  | _ =>
    obtain ⟨d, h1, rfl⟩ := ho
    cases d with
    | zero => simp [GHeap.reads] at h1
    | succ d =>
      simp only [GHeap.reads, Option.some.injEq] at h1
      subst h1
      simp

theorem ownL_nil {h : GHeap} {vs : List JV} {s : List Nat} : OwnL h [] vs s ↔ vs = [] ∧ s = [] := by
  constructor
  · rintro ⟨d, h1, rfl⟩; simp [collect] at h1; exact ⟨h1, rfl⟩
  · rintro ⟨rfl, rfl⟩; exact ⟨0, rfl, rfl⟩

theorem ownL_cons {h : GHeap} {x : GV} {xs : List GV} {vs : List JV} {s : List Nat} :
    OwnL h (x :: xs) vs s ↔
      ∃ v ws s1 s2, vs = v :: ws ∧ s = s1 ++ s2 ∧ Own h x v s1 ∧ OwnL h xs ws s2 := by
  constructor
  · rintro ⟨d, h1, rfl⟩
    obtain ⟨y, ys, rfl, h2, h3⟩ := collect_cons.1 h1
    exact ⟨y, ys, _, _, rfl, by simp, ⟨d, h2, rfl⟩, d, h3, rfl⟩
  · rintro ⟨v, ws, s1, s2, rfl, rfl, ⟨d, h2, rfl⟩, d', h3, rfl⟩
    refine ⟨max d d', ?_, ?_⟩
    · refine collect_cons.2 ⟨v, ws, rfl, (reads_mono h d x v h2 _ (Nat.le_max_left ..)).1, ?_⟩
      exact collect_mono (fun x _ y hy => (reads_mono h d' x y hy _ (Nat.le_max_right ..)).1) h3
    · simp only [List.flatMap_cons]
      rw [(reads_mono h d x v h2 _ (Nat.le_max_left ..)).2]
      congr 1
      have : ∀ (xs : List GV) (ws : List JV), collect (h.reads d') xs = some ws →
          xs.flatMap (h.owns (max d d')) = xs.flatMap (h.owns d') := by
        intro xs
        induction xs with
        | nil => intro _ _; rfl
        | cons z zs ih =>
          intro ws hw
          obtain ⟨y, ys, rfl, e1, e2⟩ := collect_cons.1 hw
          simp only [List.flatMap_cons]
          rw [ih ys e2, (reads_mono h d' z y e1 _ (Nat.le_max_right ..)).2]
      exact this xs ws h3

theorem OwnL.append {h : GHeap} : ∀ {xs : List GV} {vs : List JV} {s : List Nat} {x : GV} {v : JV} {t : List Nat},
    OwnL h xs vs s → Own h x v t → OwnL h (xs ++ [x]) (vs ++ [v]) (s ++ t)
  | [], vs, s, x, v, t, h1, h2 => by
    obtain ⟨rfl, rfl⟩ := ownL_nil.1 h1
    exact ownL_cons.2 ⟨v, [], t, [], rfl, by simp, h2, ownL_nil.2 ⟨rfl, rfl⟩⟩
  | y :: xs, vs, s, x, v, t, h1, h2 => by
    obtain ⟨w, ws, s1, s2, rfl, rfl, h3, h4⟩ := ownL_cons.1 h1
    exact ownL_cons.2 ⟨w, ws ++ [v], s1, s2 ++ t, rfl, by simp, h3, h4.append h2⟩

theorem ownM_nil {h : GHeap} {vs : List (Bytes × JV)} {s : List Nat} : OwnM h [] vs s ↔ vs = [] ∧ s = [] := by
  constructor
  · rintro ⟨d, h1, rfl⟩; simp [entries, collect] at h1; exact ⟨h1, rfl⟩
  · rintro ⟨rfl, rfl⟩; exact ⟨0, rfl, rfl⟩

theorem ownM_cons {h : GHeap} {k : Bytes} {x : GV} {xs : List (Bytes × GV)} {vs : List (Bytes × JV)} {s : List Nat} :
    OwnM h ((k, x) :: xs) vs s ↔
      ∃ v ws s1 s2, vs = (k, v) :: ws ∧ s = s1 ++ s2 ∧ Own h x v s1 ∧ OwnM h xs ws s2 := by
  constructor
  · rintro ⟨d, h1, rfl⟩
    obtain ⟨y, ys, rfl, h2, h3⟩ := entries_cons.1 h1
    exact ⟨y, ys, _, _, rfl, by simp, ⟨d, h2, rfl⟩, d, h3, rfl⟩
  · rintro ⟨v, ws, s1, s2, rfl, rfl, ⟨d, h2, rfl⟩, d', h3, rfl⟩
    have : ∀ (xs : List (Bytes × GV)) (ws : List (Bytes × JV)), entries (h.reads d') xs = some ws →
        entries (h.reads (max d d')) xs = some ws ∧
        (xs.flatMap fun p => h.owns (max d d') p.2) = xs.flatMap fun p => h.owns d' p.2 := by
      intro xs
      induction xs with
      | nil => intro _ e; exact ⟨by simpa [entries, collect] using e, rfl⟩
      | cons z zs ih =>
        obtain ⟨l, z⟩ := z
        intro ws hw
        obtain ⟨y, ys, rfl, e1, e2⟩ := entries_cons.1 hw
        simp only [List.flatMap_cons]
        obtain ⟨e3, e4⟩ := reads_mono h d' z y e1 _ (Nat.le_max_right d d')
        obtain ⟨e5, e6⟩ := ih ys e2
        exact ⟨entries_cons.2 ⟨y, ys, rfl, e3, e5⟩, by rw [e4, e6]⟩
    obtain ⟨e1, e2⟩ := this xs ws h3
    obtain ⟨e3, e4⟩ := reads_mono h d x v h2 _ (Nat.le_max_left d d')
    refine ⟨max d d', entries_cons.2 ⟨v, ws, rfl, e3, e1⟩, ?_⟩
    simp only [List.flatMap_cons]
    rw [e4, e2]

theorem OwnM.frame {h h' : GHeap} {x : List (Bytes × GV)} {v : List (Bytes × JV)} {s : List Nat} (ho : OwnM h x v s)
    (hf : ∀ a ∈ s, h'.mem a = h.mem a) : OwnM h' x v s := by
  obtain ⟨w, e, h1⟩ := own_obj.1 ((own_obj.2 ⟨v, rfl, ho⟩).frame hf)
  cases e
  exact h1

theorem OwnL.frame {h h' : GHeap} {x : List GV} {v : List JV} {s : List Nat} (ho : OwnL h x v s)
    (hf : ∀ a ∈ s, h'.mem a = h.mem a) : OwnL h' x v s := by
  obtain ⟨w, e, h1⟩ := own_list.1 ((own_list.2 ⟨v, rfl, ho⟩).frame hf)
  cases e
  exact h1

theorem ownM_get {h : GHeap} (k : Bytes) : ∀ {m : List (Bytes × GV)} {ws : List (Bytes × JV)} {s : List Nat},
    OwnM h m ws s →
    (∀ v, Assoc.get ws k = some v → ∃ x s1 t s2, Assoc.get m k = some x ∧ s = s1 ++ t ++ s2 ∧ Own h x v t ∧
      -- a store to the field
      ∀ (h' : GHeap) (y : GV) (w : JV) (t' : List Nat), (∀ a ∈ s1 ++ s2, h'.mem a = h.mem a) → Own h' y w t' →
        OwnM h' (gset m k y) (objSet ws k w) (s1 ++ t' ++ s2)) ∧
    (Assoc.get ws k = none → Assoc.get m k = none)
  | [], ws, s, ho => by
    obtain ⟨rfl, rfl⟩ := ownM_nil.1 ho
    simp [Assoc.get]
  | (l, x) :: m, zs, s, ho => by
    obtain ⟨v, ws, s1, s2, rfl, rfl, h1, h2⟩ := ownM_cons.1 ho
    obtain ⟨ih1, ih2⟩ := ownM_get k h2
    simp only [Assoc.get_cons]
    by_cases hk : l = k
    · subst hk
      simp only [if_true]
      refine ⟨fun w hw => ?_, fun hh => by cases hh⟩
      cases hw
      refine ⟨x, [], s1, s2, rfl, rfl, h1, fun h' y w t' hf hy => ?_⟩
      simp only [gset, objSet, if_true, List.nil_append]
      exact ownM_cons.2 ⟨w, ws, t', s2, rfl, rfl, hy, h2.frame (by simpa using hf)⟩
    · simp only [hk, if_false]
      refine ⟨fun w hw => ?_, ih2⟩
      obtain ⟨x', s3, t, s4, e1, rfl, e3, e4⟩ := ih1 w hw
      refine ⟨x', s1 ++ s3, t, s4, e1, by simp, e3, fun h' y w t' hf hy => ?_⟩
      simp only [gset, objSet, hk, if_false]
      refine ownM_cons.2 ⟨v, objSet ws k w, s1, s3 ++ t' ++ s4, rfl, by simp, ?_, ?_⟩
      · exact h1.frame fun a ha => hf a (by simp [ha])
      · exact e4 h' y w t' (fun a ha => hf a (by simp at ha ⊢; grind)) hy

/-- `map[key].assign(value)` -/
theorem OwnM.put {h : GHeap} {k : Bytes} {y : GV} {w : JV} {t : List Nat} (hy : Own h y w t) :
    ∀ {m : List (Bytes × GV)} {ws : List (Bytes × JV)} {s : List Nat}, OwnM h m ws s →
    ∃ s', OwnM h (gput m k y) (mapSet ws k w) s' ∧ (∀ a ∈ s', a ∈ s ∨ a ∈ t) ∧
      (s.Nodup → t.Nodup → (∀ a ∈ s, a ∉ t) → s'.Nodup)
  | [], ws, s, ho => by
    obtain ⟨rfl, rfl⟩ := ownM_nil.1 ho
    exact ⟨t, ownM_cons.2 ⟨w, [], t, [], rfl, by simp, hy, ownM_nil.2 ⟨rfl, rfl⟩⟩, fun a ha => Or.inr ha,
      fun _ h2 _ => h2⟩
  | (l, x) :: m, zs, s, ho => by
    obtain ⟨v, ws, s1, s2, rfl, rfl, h1, h2⟩ := ownM_cons.1 ho
    by_cases hk : k = l
    · subst hk
      simp only [gput, mapSet, if_true]
      refine ⟨t ++ s2, ownM_cons.2 ⟨w, ws, t, s2, rfl, rfl, hy, h2⟩, fun a ha => ?_, fun e1 e2 e3 => ?_⟩
      · simp at ha ⊢; grind
      · rw [List.nodup_append] at e1 ⊢
        exact ⟨e2, e1.2.1, fun a ha b hb hab => e3 b (by simp [hb]) (hab ▸ ha)⟩
    · simp only [gput, mapSet, hk, if_false]
      by_cases hl : bytesLt k l
      · simp only [hl, if_true]
        refine ⟨t ++ (s1 ++ s2), ownM_cons.2 ⟨w, _, t, _, rfl, rfl, hy, ho⟩, fun a ha => ?_, fun e1 e2 e3 => ?_⟩
        · simp at ha ⊢; grind
        · rw [List.nodup_append]
          exact ⟨e2, e1, fun a ha b hb hab => e3 b hb (hab ▸ ha)⟩
      · simp only [hl]
        obtain ⟨s', e1, e2, e3⟩ := OwnM.put (k := k) hy h2
        refine ⟨s1 ++ s', ownM_cons.2 ⟨v, _, s1, s', rfl, rfl, h1, e1⟩, fun a ha => ?_, fun f1 f2 f3 => ?_⟩
        · simp at ha ⊢
          rcases ha with ha | ha
          · grind
          · have := e2 a ha; grind
        · rw [List.nodup_append] at f1 ⊢
          refine ⟨f1.1, e3 f1.2.1 f2 (fun a ha => f3 a (by simp [ha])), fun a ha b hb hab => ?_⟩
          subst hab
          rcases e2 a hb with hb | hb
          · exact f1.2.2 a ha a hb rfl
          · exact f3 a (by simp [ha]) hb

/-! ### places -/

theorem gset_get (k : Bytes) (y : GV) : ∀ {m : List (Bytes × GV)} {x : GV}, Assoc.get m k = some x →
    Assoc.get (gset m k y) k = some y
  | [], _, h => by simp [Assoc.get] at h
  | (l, u) :: m, x, h => by
    simp only [gset]
    by_cases hk : l = k
    · simp [hk, Assoc.get_cons]
    · simp only [Assoc.get_cons, hk, if_false] at h ⊢
      exact gset_get k y h

theorem gset_gset (k : Bytes) (y z : GV) : ∀ (m : List (Bytes × GV)), gset (gset m k y) k z = gset m k z
  | [] => rfl
  | (l, u) :: m => by
    simp only [gset]
    by_cases hk : l = k
    · simp [hk, gset]
    · simp [hk, gset, gset_gset k y z m]

theorem sub_put : ∀ (p : List Bytes) {v x : GV} (y : GV), v.sub p = some x → (v.put p y).sub p = some y
  | [], _, _, _, _ => by simp [GV.put, GV.sub]
  | k :: p, v, x, y, h => by
    cases v with
    | obj fs =>
      simp only [GV.sub] at h
      cases hg : Assoc.get fs k with
      | none => simp [hg] at h
      | some z =>
        simp only [hg] at h
        simp only [GV.put, hg, GV.sub, gset_get k _ hg]
        exact sub_put p y h
    | _ => simp [GV.sub] at h

theorem put_put : ∀ (p : List Bytes) (v y z : GV), (v.put p y).put p z = v.put p z
  | [], _, _, _ => by simp [GV.put]
  | k :: p, v, y, z => by
    cases v with
    | obj fs =>
      cases hg : Assoc.get fs k with
      | none => simp [GV.put, hg]
      | some w => simp only [GV.put, hg, gset_get k _ hg, gset_gset, put_put p]
    | _ => simp [GV.put]

theorem put_sub : ∀ (p : List Bytes) {v x : GV}, v.sub p = some x → v.put p x = v
  | [], _, _, h => by simpa [GV.put, GV.sub, eq_comm] using h
  | k :: p, v, x, h => by
    cases v with
    | obj fs =>
      simp only [GV.sub] at h
      cases hg : Assoc.get fs k with
      | none => simp [hg] at h
      | some z =>
        simp only [hg] at h
        simp only [GV.put, hg, put_sub p h]
        have : ∀ (m : List (Bytes × GV)) (k : Bytes) (z : GV), Assoc.get m k = some z → gset m k z = m := by
          intro m k z
          induction m with
          | nil => intro _; rfl
          | cons q m ih =>
            obtain ⟨l, u⟩ := q
            simp only [Assoc.get_cons, gset]
            by_cases hk : l = k
            · simp [hk]; grind
            · simp [hk]; exact ih
        rw [this fs k z hg]
    | _ => simp [GV.sub] at h

theorem sub_append : ∀ (p : List Bytes) (k : Bytes) {v : GV} {fs : List (Bytes × GV)}, v.sub p = some (.obj fs) →
    v.sub (p ++ [k]) = Assoc.get fs k
  | [], k, v, fs, h => by
    simp only [GV.sub, Option.some.injEq] at h
    subst h
    simp only [List.nil_append, GV.sub]
    cases Assoc.get fs k <;> rfl
  | l :: p, k, v, fs, h => by
    cases v with
    | obj gs =>
      simp only [GV.sub] at h
      simp only [List.cons_append, GV.sub]
      cases hg : Assoc.get gs l with
      | none => simp [hg] at h
      | some z =>
        simp only [hg] at h
        exact sub_append p k h
    | _ => simp [GV.sub] at h

theorem put_append : ∀ (p : List Bytes) (k : Bytes) {v : GV} {fs : List (Bytes × GV)} {x : GV} (y : GV),
    v.sub p = some (.obj fs) → Assoc.get fs k = some x → v.put (p ++ [k]) y = v.put p (.obj (gset fs k y))
  | [], k, v, fs, x, y, h, hx => by
    simp only [GV.sub, Option.some.injEq] at h
    subst h
    simp [GV.put, hx]
  | l :: p, k, v, fs, x, y, h, hx => by
    cases v with
    | obj gs =>
      simp only [GV.sub] at h
      simp only [List.cons_append, GV.put]
      cases hg : Assoc.get gs l with
      | none => simp [hg] at h
      | some z =>
        simp only [hg] at h
        simp only [put_append p k y h hx]
    | _ => simp [GV.sub] at h

/-! ### new objects -/

/-- `h'` has new objects only -/
def Grows (h h' : GHeap) : Prop := h.next ≤ h'.next ∧ ∀ b < h.next, h'.mem b = h.mem b

theorem Grows.refl (h : GHeap) : Grows h h := ⟨Nat.le_refl _, fun _ _ => rfl⟩
theorem Grows.trans {h h' h'' : GHeap} (h1 : Grows h h') (h2 : Grows h' h'') : Grows h h'' :=
  ⟨Nat.le_trans h1.1 h2.1, fun b hb => by rw [h2.2 b (Nat.lt_of_lt_of_le hb h1.1), h1.2 b hb]⟩

/-- all between the two heaps, each once -/
def AllNew (h h' : GHeap) (s : List Nat) : Prop := s.Nodup ∧ ∀ a ∈ s, h.next ≤ a ∧ a < h'.next

theorem new_grows (h : GHeap) (x : GV) : Grows h (h.new x).1 := by
  refine ⟨Nat.le_succ _, fun b hb => ?_⟩
  simp only [GHeap.new]
  rw [if_neg (by omega)]

theorem AllNew.append {h h1 h2 : GHeap} {s t : List Nat} (g1 : h.next ≤ h1.next) (g2 : h1.next ≤ h2.next)
    (f1 : AllNew h h1 s) (f2 : AllNew h1 h2 t) : AllNew h h2 (s ++ t) := by
  refine ⟨List.nodup_append.2 ⟨f1.1, f2.1, fun a ha b hb hab => ?_⟩, fun a ha => ?_⟩
  · have := f1.2 a ha; have := f2.2 b hb; omega
  · rcases List.mem_append.1 ha with ha | ha
    · have := f1.2 a ha; omega
    · have := f2.2 a ha; omega

mutual
theorem build_own : ∀ (v : JV) (h : GHeap), Grows h (build v h).2 ∧
    ∃ s, Own (build v h).2 (build v h).1 v s ∧ AllNew h (build v h).2 s
  | .void, h | .bool _, h | .int _, h | .flt _, h | .str _, h | .null, h =>
    ⟨Grows.refl h, [], ⟨1, rfl, rfl⟩, List.nodup_nil, fun a ha => by cases ha⟩
  | .ptr v, h => by
    obtain ⟨g1, s, o1, f1⟩ := build_own v h
    simp only [build]
    refine ⟨g1.trans (new_grows ..), (build v h).2.next :: s, ?_, ?_, ?_⟩
    · refine own_ptr.2 ⟨v, s, rfl, rfl, ?_⟩
      have : ((build v h).2.new (build v h).1).1.mem (build v h).2.next = (build v h).1 := by simp [GHeap.new]
      rw [show ((build v h).2.new (build v h).1).2 = (build v h).2.next from rfl, this]
      exact o1.frame fun a ha => (new_grows _ _).2 a (f1.2 a ha).2
    · refine List.nodup_cons.2 ⟨fun hm => ?_, f1.1⟩
      exact Nat.lt_irrefl _ (f1.2 _ hm).2
    · intro a ha
      have hn : ((build v h).2.new (build v h).1).1.next = (build v h).2.next + 1 := rfl
      rw [hn]
      have := g1.1
      rcases List.mem_cons.1 ha with rfl | ha
      · omega
      · have := f1.2 a ha; omega
  | .list vs, h => by
    obtain ⟨g1, s, o1, f1⟩ := buildL_own vs h
    exact ⟨g1, s, own_list.2 ⟨vs, rfl, o1⟩, f1⟩
  | .map m, h => by
    obtain ⟨g1, s, o1, f1⟩ := buildM_own m h
    exact ⟨g1, s, own_map.2 ⟨m, rfl, o1⟩, f1⟩
  | .obj m, h => by
    obtain ⟨g1, s, o1, f1⟩ := buildM_own m h
    exact ⟨g1, s, own_obj.2 ⟨m, rfl, o1⟩, f1⟩
theorem buildL_own : ∀ (vs : List JV) (h : GHeap), Grows h (buildL vs h).2 ∧
    ∃ s, OwnL (buildL vs h).2 (buildL vs h).1 vs s ∧ AllNew h (buildL vs h).2 s
  | [], h => ⟨Grows.refl h, [], ownL_nil.2 ⟨rfl, rfl⟩, List.nodup_nil, fun a ha => by cases ha⟩
  | v :: vs, h => by
    obtain ⟨g1, s, o1, f1⟩ := build_own v h
    obtain ⟨g2, t, o2, f2⟩ := buildL_own vs (build v h).2
    simp only [buildL]
    exact ⟨g1.trans g2, s ++ t,
      ownL_cons.2 ⟨v, vs, s, t, rfl, rfl, o1.frame fun a ha => g2.2 a (f1.2 a ha).2, o2⟩, f1.append g1.1 g2.1 f2⟩
theorem buildM_own : ∀ (vs : List (Bytes × JV)) (h : GHeap), Grows h (buildM vs h).2 ∧
    ∃ s, OwnM (buildM vs h).2 (buildM vs h).1 vs s ∧ AllNew h (buildM vs h).2 s
  | [], h => ⟨Grows.refl h, [], ownM_nil.2 ⟨rfl, rfl⟩, List.nodup_nil, fun a ha => by cases ha⟩
  | (k, v) :: vs, h => by
    obtain ⟨g1, s, o1, f1⟩ := build_own v h
    obtain ⟨g2, t, o2, f2⟩ := buildM_own vs (build v h).2
    simp only [buildM]
    exact ⟨g1.trans g2, s ++ t,
      ownM_cons.2 ⟨v, vs, s, t, rfl, rfl, o1.frame fun a ha => g2.2 a (f1.2 a ha).2, o2⟩, f1.append g1.1 g2.1 f2⟩
end

/-- a new object of a value -/
theorem made_own (v : JV) (h : GHeap) : ∃ m h' s, ((build v h).2.new (build v h).1) = (h', m) ∧ Grows h h' ∧
    h.next ≤ m ∧ m < h'.next ∧ m ∉ s ∧ Own h' (h'.mem m) v s ∧ AllNew h h' s := by
  obtain ⟨g1, s, o1, f1⟩ := build_own v h
  have hn : ((build v h).2.new (build v h).1).1.next = (build v h).2.next + 1 := rfl
  have hm : ((build v h).2.new (build v h).1).1.mem (build v h).2.next = (build v h).1 := by simp [GHeap.new]
  refine ⟨(build v h).2.next, ((build v h).2.new (build v h).1).1, s, rfl, g1.trans (new_grows ..), g1.1, by omega,
    fun hh => Nat.lt_irrefl _ (f1.2 _ hh).2, ?_, f1.1, fun a ha => ?_⟩
  · rw [hm]
    exact o1.frame fun a ha => (new_grows _ _).2 a (f1.2 a ha).2
  · have := f1.2 a ha; omega

end Reflect.Json
