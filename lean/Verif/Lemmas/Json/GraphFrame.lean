import Verif.Lemmas.Json.GraphSim
/-
  What parsing into objects with pointers leaves alone.
-/
namespace Reflect.Json

theorem mem_of_assoc {m : List (Bytes × GV)} {k : Bytes} {x : GV} : Assoc.get m k = some x → (k, x) ∈ m := by
  induction m with
  | nil => simp [Assoc.get]
  | cons q m ih =>
    obtain ⟨l, u⟩ := q
    simp only [Assoc.get_cons]
    by_cases hk : l = k
    · simp only [hk, if_true, Option.some.injEq]; rintro rfl; simp
    · simp only [hk, if_false]; intro h; simp [ih h]

theorem mem_gset {m : List (Bytes × GV)} {k : Bytes} {y : GV} {p : Bytes × GV} : p ∈ gset m k y → p ∈ m ∨ p.2 = y := by
  induction m with
  | nil => simp [gset]
  | cons q m ih =>
    obtain ⟨l, u⟩ := q
    simp only [gset]
    by_cases hk : l = k
    · simp only [hk, if_true, List.mem_cons]
      rintro (rfl | h)
      · exact Or.inr rfl
      · exact Or.inl (Or.inr h)
    · simp only [hk, if_false, List.mem_cons]
      rintro (rfl | h)
      · exact Or.inl (Or.inl rfl)
      · rcases ih h with h | h
        · exact Or.inl (Or.inr h)
        · exact Or.inr h

theorem mem_gput {m : List (Bytes × GV)} {k : Bytes} {y : GV} {p : Bytes × GV} : p ∈ gput m k y → p ∈ m ∨ p.2 = y := by
  induction m with
  | nil => simp only [gput, List.mem_singleton]; rintro rfl; exact Or.inr rfl
  | cons q m ih =>
    obtain ⟨l, u⟩ := q
    simp only [gput]
    split
    · simp only [List.mem_cons]
      rintro (rfl | h)
      · exact Or.inr rfl
      · exact Or.inl (Or.inr h)
    · split
      · simp only [List.mem_cons]
        rintro (rfl | h)
        · exact Or.inr rfl
        · exact Or.inl h
      · simp only [List.mem_cons]
        rintro (rfl | h)
        · exact Or.inl (Or.inl rfl)
        · rcases ih h with h | h
          · exact Or.inl (Or.inr h)
          · exact Or.inr h

theorem mentions_sub : ∀ (p : List Bytes) {v x : GV} {c : Nat}, v.sub p = some x → Mentions x c → Mentions v c
  | [], v, x, c, h, hm => by simp only [GV.sub, Option.some.injEq] at h; exact h ▸ hm
  | k :: p, v, x, c, h, hm => by
    cases v with
    | obj fs =>
      simp only [GV.sub] at h
      cases hg : Assoc.get fs k with
      | none => simp [hg] at h
      | some z =>
        simp only [hg] at h
        exact .field (mem_of_assoc hg) (mentions_sub p h hm)
    | _ => simp [GV.sub] at h

theorem mentions_put : ∀ (p : List Bytes) {v x : GV} {c : Nat}, Mentions (v.put p x) c → Mentions v c ∨ Mentions x c
  | [], v, x, c, hm => by simp only [GV.put] at hm; exact Or.inr hm
  | k :: p, v, x, c, hm => by
    cases v with
    | obj fs =>
      simp only [GV.put] at hm
      cases hg : Assoc.get fs k with
      | none => simp only [hg] at hm; exact Or.inl hm
      | some z =>
        simp only [hg] at hm
        cases hm with
        | field h1 h2 =>
          rcases mem_gset h1 with h1 | h1
          · exact Or.inl (.field h1 h2)
          · rw [h1] at h2
            rcases mentions_put p h2 with h2 | h2
            · exact Or.inl (.field (mem_of_assoc hg) h2)
            · exact Or.inr h2
    | _ => simp only [GV.put] at hm; exact Or.inl hm

/-! ### sets of objects closed under pointers -/

/-- `S` has all the new objects, and all the objects its objects point to -/
structure Closed (S : Nat → Prop) (h : GHeap) : Prop where
  fresh : ∀ a, h.next ≤ a → S a
  ptrs : ∀ a, S a → a < h.next → ∀ c, Mentions (h.mem a) c → S c ∧ c < h.next

/-- `h'` is a heap after changes to objects in `S` only -/
structure Within (S : Nat → Prop) (h h' : GHeap) : Prop where
  closed : Closed S h'
  next : h.next ≤ h'.next
  same : ∀ b, ¬ S b → h'.mem b = h.mem b

theorem Within.refl {S : Nat → Prop} {h : GHeap} (hc : Closed S h) : Within S h h := ⟨hc, Nat.le_refl _, fun _ _ => rfl⟩

theorem Within.trans {S : Nat → Prop} {h h1 h2 : GHeap} (w1 : Within S h h1) (w2 : Within S h1 h2) : Within S h h2 :=
  ⟨w2.closed, Nat.le_trans w1.next w2.next, fun b hb => by rw [w2.same b hb, w1.same b hb]⟩

theorem Within.put {S : Nat → Prop} {h : GHeap} {pl : Place} {x : GV} (hc : Closed S h) (hp : S pl.addr)
    (hpl : pl.addr < h.next) (hx : ∀ c, Mentions x c → S c ∧ c < h.next) : Within S h (h.put pl x) := by
  refine ⟨⟨hc.fresh, fun a ha hl c hm => ?_⟩, Nat.le_refl _, fun b hb => put_mem_ne _ _ _ fun hh => hb (hh ▸ hp)⟩
  simp only [GHeap.put] at hm
  split at hm
  · rename_i he
    subst he
    rcases mentions_put _ hm with hm | hm
    · exact hc.ptrs _ hp hpl c hm
    · exact hx c hm
  · exact hc.ptrs a ha hl c hm

theorem Within.drop {S : Nat → Prop} {h : GHeap} {m : Nat} (hc : Closed S h) (hm : S m) : Within S h (h.drop m) := by
  refine ⟨⟨hc.fresh, fun a ha hl c hh => ?_⟩, Nat.le_refl _, fun b hb => drop_mem_ne _ _ fun hh => hb (hh ▸ hm)⟩
  simp only [GHeap.drop] at hh
  split at hh
  · cases hh
  · exact hc.ptrs a ha hl c hh

theorem Within.new {S : Nat → Prop} {h : GHeap} {x : GV} (hc : Closed S h) (hx : ∀ c, Mentions x c → S c ∧ c < h.next) :
    Within S h (h.new x).1 := by
  refine ⟨⟨fun a ha => hc.fresh a ?_, fun a ha hl c hm => ?_⟩, Nat.le_succ _, fun b hb => ?_⟩
  · simp only [GHeap.new] at ha; omega
  · simp only [GHeap.new] at hm hl
    have hn : (h.new x).1.next = h.next + 1 := rfl
    rw [hn]
    split at hm
    · have := hx c hm; exact ⟨this.1, by omega⟩
    · have := hc.ptrs a ha (by omega) c hm; exact ⟨this.1, by omega⟩
  · simp only [GHeap.new]
    rw [if_neg fun hh => hb (hc.fresh b (by omega))]

mutual
theorem build_within (S : Nat → Prop) : ∀ (v : JV) (h : GHeap), Closed S h →
    Within S h (build v h).2 ∧ ∀ c, Mentions (build v h).1 c → S c ∧ c < (build v h).2.next
  | .void, h, hc | .bool _, h, hc | .int _, h, hc | .flt _, h, hc | .str _, h, hc | .null, h, hc =>
    ⟨Within.refl hc, fun c hm => by simp only [build] at hm; cases hm⟩
  | .ptr v, h, hc => by
    obtain ⟨w, e⟩ := build_within S v h hc
    simp only [build]
    refine ⟨w.trans (Within.new w.closed e), fun c hm => ?_⟩
    cases hm
    exact ⟨w.closed.fresh _ (Nat.le_refl _), Nat.lt_succ_self _⟩
  | .list vs, h, hc => by
    obtain ⟨w, e⟩ := buildL_within S vs h hc
    exact ⟨w, fun c hm => by simp only [build] at hm; cases hm with | item h1 h2 => exact e _ h1 c h2⟩
  | .map m, h, hc => by
    obtain ⟨w, e⟩ := buildM_within S m h hc
    exact ⟨w, fun c hm => by simp only [build] at hm; cases hm with | entry h1 h2 => exact e _ h1 c h2⟩
  | .obj m, h, hc => by
    obtain ⟨w, e⟩ := buildM_within S m h hc
    exact ⟨w, fun c hm => by simp only [build] at hm; cases hm with | field h1 h2 => exact e _ h1 c h2⟩
theorem buildL_within (S : Nat → Prop) : ∀ (vs : List JV) (h : GHeap), Closed S h →
    Within S h (buildL vs h).2 ∧ ∀ x ∈ (buildL vs h).1, ∀ c, Mentions x c → S c ∧ c < (buildL vs h).2.next
  | [], h, hc => ⟨Within.refl hc, fun x hx => by simp [buildL] at hx⟩
  | v :: vs, h, hc => by
    obtain ⟨w, e⟩ := build_within S v h hc
    obtain ⟨w2, e2⟩ := buildL_within S vs _ w.closed
    simp only [buildL]
    refine ⟨w.trans w2, fun x hx => ?_⟩
    rcases List.mem_cons.1 hx with rfl | hx
    · exact fun c hm => ⟨(e c hm).1, Nat.lt_of_lt_of_le (e c hm).2 w2.next⟩
    · exact e2 x hx
theorem buildM_within (S : Nat → Prop) : ∀ (vs : List (Bytes × JV)) (h : GHeap), Closed S h →
    Within S h (buildM vs h).2 ∧ ∀ x ∈ (buildM vs h).1, ∀ c, Mentions x.2 c → S c ∧ c < (buildM vs h).2.next
  | [], h, hc => ⟨Within.refl hc, fun x hx => by simp [buildM] at hx⟩
  | (k, v) :: vs, h, hc => by
    obtain ⟨w, e⟩ := build_within S v h hc
    obtain ⟨w2, e2⟩ := buildM_within S vs _ w.closed
    simp only [buildM]
    refine ⟨w.trans w2, fun x hx => ?_⟩
    rcases List.mem_cons.1 hx with rfl | hx
    · exact fun c hm => ⟨(e c hm).1, Nat.lt_of_lt_of_le (e c hm).2 w2.next⟩
    · exact e2 x hx
end

theorem made_within {S : Nat → Prop} (v : JV) (h : GHeap) (hc : Closed S h) :
    Within S h ((build v h).2.new (build v h).1).1 ∧ S ((build v h).2.new (build v h).1).2 ∧
    ((build v h).2.new (build v h).1).2 < ((build v h).2.new (build v h).1).1.next := by
  obtain ⟨w, e⟩ := build_within S v h hc
  exact ⟨w.trans (Within.new w.closed e), w.closed.fresh _ (Nat.le_refl _), Nat.lt_succ_self _⟩

theorem construct_within {S : Nat → Prop} {g : GEnv} {t : TyId} {h h' : GHeap} {m : Nat} (hc : Closed S h)
    (h1 : g.construct t h = .ok (m, h')) : Within S h h' ∧ S m ∧ m < h'.next := by
  unfold GEnv.construct at h1
  cases hv : g.env.construct t with
  | error e => rw [hv] at h1; cases h1
  | ok v =>
    rw [hv, okb] at h1
    injection h1 with h1
    injection h1 with h1 h2
    subst h1 h2
    exact made_within v h hc

theorem allocate_within {S : Nat → Prop} {g : GEnv} {t : TyId} {h h' : GHeap} {m : Nat} (hc : Closed S h)
    (h1 : g.allocate t h = .ok (m, h')) : Within S h h' ∧ S m ∧ m < h'.next := by
  unfold GEnv.allocate at h1
  cases hv : g.env.allocate t with
  | error e => rw [hv] at h1; cases h1
  | ok v =>
    rw [hv, okb] at h1
    injection h1 with h1
    injection h1 with h1 h2
    subst h1 h2
    exact made_within v h hc

/-! ### loops -/

theorem Res.bind_ok {α β : Type} {x : Res α} {f : α → Res β} {b : β} (h : (x >>= f) = .ok b) :
    ∃ a, x = .ok a ∧ f a = .ok b := by
  cases x with
  | error e => cases h
  | ok a => exact ⟨a, rfl, h⟩

theorem objLoop_inv {σ : Type} {P : σ → Prop} {f : Bytes → σ → Reader → Res (σ × Reader)}
    (hf : ∀ k a r a' r', P a → f k a r = .ok (a', r') → P a') :
    ∀ (n : Nat) (a : σ) (r : Reader) (a' : σ) (r' : Reader), P a → objLoop f n a r = .ok (a', r') → P a'
  | 0, a, r, a', r', _, h => by cases h
  | n + 1, a, r, a', r', ha, h => by
    unfold objLoop at h
    split at h
    · obtain ⟨p, _, h⟩ := Res.bind_ok h
      obtain ⟨_, _, h⟩ := Res.bind_ok h
      obtain ⟨q, _, h⟩ := Res.bind_ok h
      obtain ⟨c, h1, h⟩ := Res.bind_ok h
      obtain ⟨e, _, h⟩ := Res.bind_ok h
      have hc : P c.1 := hf _ _ _ _ _ ha h1
      split at h
      · cases h; exact hc
      · exact objLoop_inv hf n _ _ _ _ hc (mayAssert_bind h).2
    · cases h; exact ha

theorem parseObject_inv {σ : Type} {P : σ → Prop} {f : Bytes → σ → Reader → Res (σ × Reader)}
    (hf : ∀ k a r a' r', P a → f k a r = .ok (a', r') → P a') {n : Nat} {a : σ} {r : Reader} {a' : σ} {r' : Reader}
    (ha : P a) (h : parseObject f n a r = .ok (a', r')) : P a' := by
  unfold parseObject at h
  obtain ⟨p, _, h⟩ := Res.bind_ok h
  split at h
  · cases h; exact ha
  · obtain ⟨q, _, h⟩ := Res.bind_ok (mayAssert_bind h).2
    split at h
    · obtain ⟨e, _, h⟩ := Res.bind_ok h
      cases h; exact ha
    · exact objLoop_inv hf _ _ _ _ _ ha h

theorem arrLoop_inv {σ : Type} {P : σ → Prop} {f : Nat → σ → Reader → Res (σ × Reader)}
    (hf : ∀ k a r a' r', P a → f k a r = .ok (a', r') → P a') :
    ∀ (n i : Nat) (a : σ) (r : Reader) (a' : σ) (r' : Reader), P a → arrLoop f n i a r = .ok (a', r') → P a'
  | 0, i, a, r, a', r', _, h => by cases h
  | n + 1, i, a, r, a', r', ha, h => by
    unfold arrLoop at h
    split at h
    · obtain ⟨c, h1, h⟩ := Res.bind_ok h
      obtain ⟨e, _, h⟩ := Res.bind_ok h
      have hc : P c.1 := hf _ _ _ _ _ ha h1
      split at h
      · cases h; exact hc
      · exact arrLoop_inv hf n _ _ _ _ _ hc (mayAssert_bind h).2
    · cases h; exact ha

theorem parseArray_inv {σ : Type} {P : σ → Prop} {f : Nat → σ → Reader → Res (σ × Reader)}
    (hf : ∀ k a r a' r', P a → f k a r = .ok (a', r') → P a') {n : Nat} {a : σ} {r : Reader} {a' : σ} {r' : Reader}
    (ha : P a) (h : parseArray f n a r = .ok (a', r')) : P a' := by
  unfold parseArray at h
  obtain ⟨p, _, h⟩ := Res.bind_ok h
  split at h
  · cases h; exact ha
  · obtain ⟨q, _, h⟩ := Res.bind_ok (mayAssert_bind h).2
    split at h
    · obtain ⟨e, _, h⟩ := Res.bind_ok h
      cases h; exact ha
    · exact arrLoop_inv hf _ _ _ _ _ _ ha h

/-! ### the parser -/

/-- the custom parsers stay within what can be reached, too -/
def Confined (g : GEnv) : Prop := ∀ ty name f, g.parseFn ty name = some f →
  ∀ (S : Nat → Prop) pl h r h' r', Closed S h → S pl.addr → pl.addr < h.next → f pl h r = .ok (h', r') → Within S h h'

theorem parse_within (g : GEnv) (hg : Confined g) (c : PCache) (S : Nat → Prop) :
    ∀ (n : Nat) (ty : TyId) (pl : Place) (h : GHeap) (r : Reader) (pl' : Place) (h' : GHeap) (r' : Reader),
    Closed S h → S pl.addr → pl.addr < h.next → parseG g c n ty pl h r = .ok (pl', h', r') → Within S h h'
  | 0, ty, pl, h, r, pl', h', r', _, _, _, hp => by rw [parseG.eq_def] at hp; cases hp
  | n + 1, ty, pl, h, r, pl', h', r', hc, hpl, hl, hp => by
    have ih := fun ty pl h r pl' h' r' => parse_within g hg c S n ty pl h r pl' h' r'
    rw [parseG.eq_def] at hp
    simp only at hp
    cases hst : Assoc.get c ty with
    | none => rw [hst] at hp; cases hp
    | some st =>
      rw [hst] at hp
      obtain ⟨kind, inner, keys, fields, fn⟩ := st
      simp only at hp
      have sc : ∀ y, (∀ c, ¬ Mentions y c) → Within S h (h.put pl y) := fun y hy =>
        Within.put hc hpl hl fun c hm => absurd hm (hy c)
      cases kind with
      | bool =>
        obtain ⟨p, _, hp⟩ := Res.bind_ok hp
        split at hp
        · cases hp; exact sc _ fun c hm => by cases hm
        · cases hp
      | int =>
        obtain ⟨p, _, hp⟩ := Res.bind_ok hp
        split at hp
        · cases hp; exact sc _ fun c hm => by cases hm
        · cases hp
      | float =>
        obtain ⟨p, _, hp⟩ := Res.bind_ok hp
        obtain ⟨q, _, hp⟩ := Res.bind_ok hp
        split at hp
        · cases hp; exact sc _ fun c hm => by cases hm
        · cases hp
      | string =>
        obtain ⟨p, _, hp⟩ := Res.bind_ok hp
        split at hp
        · cases hp; exact sc _ fun c hm => by cases hm
        · cases hp
      | pointer =>
        obtain ⟨p, _, hp⟩ := Res.bind_ok hp
        split at hp
        · obtain ⟨q, _, hp⟩ := Res.bind_ok hp
          split at hp
          · cases hp; exact sc _ fun c hm => by cases hm
          · cases inner with
            | none => cases hp
            | some t =>
              obtain ⟨m, hm, hp⟩ := Res.bind_ok hp
              cases hp
              exact (construct_within hc hm).1
        · cases inner with
          | none => cases hp
          | some t =>
            cases hg : h.get pl with
            | none => rw [hg] at hp; cases hp
            | some x =>
              rw [hg] at hp
              cases x with
              | ptr a =>
                obtain ⟨q, hq, hp⟩ := Res.bind_ok hp
                cases hp
                have ha := hc.ptrs _ hpl hl a (mentions_sub _ hg (.ptr a))
                exact ih t ⟨a, []⟩ h p.2 _ _ _ hc ha.1 ha.2 hq
              | null =>
                obtain ⟨m, hm, hp⟩ := Res.bind_ok hp
                obtain ⟨q, hq, hp⟩ := Res.bind_ok hp
                cases hp
                obtain ⟨w, hs, hml⟩ := allocate_within hc hm
                have w2 := w.trans (ih t ⟨m.1, []⟩ m.2 p.2 _ _ _ w.closed hs hml hq)
                refine w2.trans (Within.put w2.closed hpl (Nat.lt_of_lt_of_le hl w2.next) fun c hm' => ?_)
                cases hm'
                exact ⟨hs, Nat.lt_of_lt_of_le hml (ih t ⟨m.1, []⟩ m.2 p.2 _ _ _ w.closed hs hml hq).next⟩
              | _ => cases hp
      | list =>
        cases inner with
        | none =>
          cases hg : h.get pl with
          | none => rw [hg] at hp; cases hp
          | some x =>
            rw [hg] at hp
            cases x with
            | list vs =>
              obtain ⟨q, hq, hp⟩ := Res.bind_ok hp
              cases hp
              refine parseArray_inv (P := fun h1 => Within S h h1) ?_ (Within.refl hc) hq
              intro _ _ _ _ _ _ hf
              cases hf
            | _ => cases hp
        | some t =>
          cases hg : h.get pl with
          | none => rw [hg] at hp; cases hp
          | some x =>
            rw [hg] at hp
            cases x with
            | list vs =>
              obtain ⟨q, hq, hp⟩ := Res.bind_ok hp
              cases hp
              refine parseArray_inv (P := fun h1 => Within S h h1) ?_ (Within.refl hc) hq
              intro _ h1 r1 h2 r2 w1 hf
              obtain ⟨m, hm, hf⟩ := Res.bind_ok hf
              obtain ⟨z, hz, hf⟩ := Res.bind_ok hf
              obtain ⟨w2, hs, hml⟩ := construct_within w1.closed hm
              have w3 := ih t ⟨m.1, []⟩ m.2 r1 _ _ _ w2.closed hs hml hz
              have w4 := w1.trans (w2.trans w3)
              split at hf
              · split at hf
                · split at hf
                  · rename_i ys hys
                    cases hf
                    have w5 : Within S h (z.2.1.put pl (.list (ys ++ [z.2.1.mem m.1]))) := by
                      refine w4.trans (Within.put w4.closed hpl (Nat.lt_of_lt_of_le hl w4.next) fun c hm' => ?_)
                      cases hm' with
                      | item h1 h2 =>
                        rcases List.mem_append.1 h1 with h1 | h1
                        · exact w4.closed.ptrs _ hpl (Nat.lt_of_lt_of_le hl w4.next) c (mentions_sub _ hys (.item h1 h2))
                        · simp only [List.mem_singleton] at h1
                          subst h1
                          exact w4.closed.ptrs _ hs (Nat.lt_of_lt_of_le hml w3.next) c h2
                    exact w5.trans (Within.drop w5.closed hs)
                  · cases hf
                · cases hf
              · cases hf
                exact w4.trans (Within.drop w4.closed hs)
            | _ => cases hp
      | map =>
        cases inner with
        | none =>
          cases hg : h.get pl with
          | none => rw [hg] at hp; cases hp
          | some x =>
            rw [hg] at hp
            cases x with
            | map vs =>
              obtain ⟨q, hq, hp⟩ := Res.bind_ok hp
              cases hp
              refine parseObject_inv (P := fun h1 => Within S h h1) ?_ (Within.refl hc) hq
              intro _ _ _ _ _ _ hf
              cases hf
            | _ => cases hp
        | some t =>
          cases hg : h.get pl with
          | none => rw [hg] at hp; cases hp
          | some x =>
            rw [hg] at hp
            cases x with
            | map vs =>
              obtain ⟨q, hq, hp⟩ := Res.bind_ok hp
              cases hp
              refine parseObject_inv (P := fun h1 => Within S h h1) ?_ (Within.refl hc) hq
              intro k h1 r1 h2 r2 w1 hf
              obtain ⟨m, hm, hf⟩ := Res.bind_ok hf
              obtain ⟨z, hz, hf⟩ := Res.bind_ok hf
              obtain ⟨w2, hs, hml⟩ := construct_within w1.closed hm
              have w3 := ih t ⟨m.1, []⟩ m.2 r1 _ _ _ w2.closed hs hml hz
              have w4 := w1.trans (w2.trans w3)
              split at hf
              · split at hf
                · split at hf
                  · rename_i ys hys
                    cases hf
                    have w5 : Within S h (z.2.1.put pl (.map (gput ys k (z.2.1.mem m.1)))) := by
                      refine w4.trans (Within.put w4.closed hpl (Nat.lt_of_lt_of_le hl w4.next) fun c hm' => ?_)
                      cases hm' with
                      | entry h1 h2 =>
                        rcases mem_gput h1 with h1 | h1
                        · exact w4.closed.ptrs _ hpl (Nat.lt_of_lt_of_le hl w4.next) c (mentions_sub _ hys (.entry h1 h2))
                        · rw [h1] at h2
                          exact w4.closed.ptrs _ hs (Nat.lt_of_lt_of_le hml w3.next) c h2
                    exact w5.trans (Within.drop w5.closed hs)
                  · cases hf
                · cases hf
              · cases hf
                exact w4.trans (Within.drop w4.closed hs)
            | _ => cases hp
      | object =>
        cases hg : h.get pl with
        | none => rw [hg] at hp; cases hp
        | some x =>
          rw [hg] at hp
          cases x with
          | obj vs =>
            obtain ⟨q, hq, hp⟩ := Res.bind_ok hp
            cases hp
            refine parseObject_inv (P := fun h1 => Within S h h1) ?_ (Within.refl hc) hq
            intro k h1 r1 h2 r2 w1 hf
            cases hk : Assoc.get keys k with
            | none =>
              simp only [hk] at hf
              obtain ⟨r3, _, hf⟩ := Res.bind_ok hf
              cases hf
              exact w1
            | some f =>
              simp only [hk] at hf
              cases ht : Assoc.get fields f with
              | none => simp only [ht] at hf; cases hf
              | some t =>
                simp only [ht] at hf
                split at hf
                · cases hf
                · obtain ⟨z, hz, hf⟩ := Res.bind_ok hf
                  cases hf
                  exact w1.trans (ih t ⟨pl.addr, pl.path ++ [f]⟩ h1 r1 _ _ _ w1.closed hpl
                    (Nat.lt_of_lt_of_le hl w1.next) hz)
          | _ => cases hp
      | custom =>
        cases fn with
        | none => cases hp
        | some name =>
          simp only at hp
          cases hf : g.parseFn ty name with
          | none => rw [hf] at hp; cases hp
          | some f =>
            simp only [hf] at hp
            obtain ⟨q, hq, hp⟩ := Res.bind_ok hp
            cases hp
            exact hg ty name f hf S pl h r _ _ hc hpl hl hq
      | value =>
        simp only at hp
        split at hp
        · obtain ⟨q, hq, hp⟩ := Res.bind_ok hp
          split at hp
          · cases hp; exact Within.refl hc
          · cases hp
            exact (made_within _ h hc).1
        · cases hp

/-- what can be reached from an object, with everything that is new -/
theorem closed_reach {h : GHeap} {a : Nat} (hd : ∀ b, Reach h a b → b < h.next) :
    Closed (fun b => Reach h a b ∨ h.next ≤ b) h := by
  refine ⟨fun b hb => Or.inr hb, fun b hb hl c hm => ?_⟩
  rcases hb with hb | hb
  · exact ⟨Or.inl (.step hb hm), hd c (.step hb hm)⟩
  · omega

end Reflect.Json
