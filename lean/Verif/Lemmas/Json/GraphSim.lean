import Verif.Lemmas.Json.GraphParse
/-
  The simulation of the parser on trees by the parser on objects.
-/
namespace Reflect.Json

/-- the same fault, or related states and the same reader -/
def Sim {σ τ : Type} (R : σ → τ → Prop) (x : Res (σ × Reader)) (y : Res (τ × Reader)) : Prop :=
  match x with
  | .ok p => ∃ b, y = .ok (b, p.2) ∧ R p.1 b
  | .error e => y = .error e

theorem Sim.may {σ τ : Type} {R : σ → τ → Prop} {r : Reader} {t : Token} {x : TokType} {f : Res (σ × Reader)}
    {g : Res (τ × Reader)} (h : Sim R f g) :
    Sim R (r.mayAssert t x >>= fun _ => f) (r.mayAssert t x >>= fun _ => g) := by
  rcases mayAssert_or r t x with e | e <;> rw [e]
  · exact h
  · exact rfl

theorem objLoop_sim {σ τ : Type} {R : σ → τ → Prop} {f : Bytes → σ → Reader → Res (σ × Reader)}
    {g : Bytes → τ → Reader → Res (τ × Reader)} (hf : ∀ k a b r, R a b → Sim R (f k a r) (g k b r)) :
    ∀ (n : Nat) (a : σ) (b : τ) (r : Reader), R a b → Sim R (objLoop f n a r) (objLoop g n b r)
  | 0, a, b, r, _ => rfl
  | n + 1, a, b, r, hab => by
    unfold objLoop
    split
    · cases h1 : r.expectToken .string with
      | error e => exact rfl
      | ok p =>
        simp only [okb]
        cases h2 : p.1.asString p.2 with
        | error e => exact rfl
        | ok _ =>
          simp only [okb]
          cases h3 : p.2.expectToken .keySeparator with
          | error e => exact rfl
          | ok q =>
            simp only [okb]
            have := hf q.2.buf a b q.2 hab
            cases h4 : f q.2.buf a q.2 with
            | error e => rw [h4] at this; rw [show g q.2.buf b q.2 = .error e from this]; exact rfl
            | ok c =>
              rw [h4] at this
              obtain ⟨b', e1, e2⟩ := this
              simp only [e1, okb]
              cases h5 : c.2.nextToken with
              | error e => exact rfl
              | ok t =>
                simp only [okb]
                split
                · exact ⟨b', rfl, e2⟩
                · exact Sim.may (objLoop_sim hf n c.1 b' _ e2)
    · exact ⟨b, rfl, hab⟩

theorem parseObject_sim {σ τ : Type} {R : σ → τ → Prop} {f : Bytes → σ → Reader → Res (σ × Reader)}
    {g : Bytes → τ → Reader → Res (τ × Reader)} (hf : ∀ k a b r, R a b → Sim R (f k a r) (g k b r))
    (n : Nat) (a : σ) (b : τ) (r : Reader) (hab : R a b) : Sim R (parseObject f n a r) (parseObject g n b r) := by
  unfold parseObject
  cases h1 : r.nextToken with
  | error e => exact rfl
  | ok p =>
    simp only [okb]
    split
    · exact ⟨b, rfl, hab⟩
    · apply Sim.may
      cases h2 : (p.2.assertToken p.1 .objectStart).2.peekToken with
      | error e => exact rfl
      | ok q =>
        simp only [okb]
        split
        · cases h3 : q.2.expectToken .objectEnd with
          | error e => exact rfl
          | ok t => exact ⟨b, rfl, hab⟩
        · exact objLoop_sim hf n a b _ hab

theorem arrLoop_sim {σ τ : Type} {R : σ → τ → Prop} {f : Nat → σ → Reader → Res (σ × Reader)}
    {g : Nat → τ → Reader → Res (τ × Reader)} (hf : ∀ k a b r, R a b → Sim R (f k a r) (g k b r)) :
    ∀ (n i : Nat) (a : σ) (b : τ) (r : Reader), R a b → Sim R (arrLoop f n i a r) (arrLoop g n i b r)
  | 0, i, a, b, r, _ => rfl
  | n + 1, i, a, b, r, hab => by
    unfold arrLoop
    split
    · have := hf i a b r hab
      cases h4 : f i a r with
      | error e => rw [h4] at this; rw [show g i b r = .error e from this]; exact rfl
      | ok c =>
        rw [h4] at this
        obtain ⟨b', e1, e2⟩ := this
        simp only [e1, okb]
        cases h5 : c.2.nextToken with
        | error e => exact rfl
        | ok t =>
          simp only [okb]
          split
          · exact ⟨b', rfl, e2⟩
          · exact Sim.may (arrLoop_sim hf n (i + 1) c.1 b' _ e2)
    · exact ⟨b, rfl, hab⟩

theorem parseArray_sim {σ τ : Type} {R : σ → τ → Prop} {f : Nat → σ → Reader → Res (σ × Reader)}
    {g : Nat → τ → Reader → Res (τ × Reader)} (hf : ∀ k a b r, R a b → Sim R (f k a r) (g k b r))
    (n : Nat) (a : σ) (b : τ) (r : Reader) (hab : R a b) : Sim R (parseArray f n a r) (parseArray g n b r) := by
  unfold parseArray
  cases h1 : r.nextToken with
  | error e => exact rfl
  | ok p =>
    simp only [okb]
    split
    · exact ⟨b, rfl, hab⟩
    · apply Sim.may
      cases h2 : (p.2.assertToken p.1 .arrayStart).2.peekToken with
      | error e => exact rfl
      | ok q =>
        simp only [okb]
        split
        · cases h3 : q.2.expectToken .arrayEnd with
          | error e => exact rfl
          | ok t => exact ⟨b, rfl, hab⟩
        · exact arrLoop_sim hf n 0 a b _ hab

/-! ### the relation -/

/-- the place holds what reads as `v`; the objects `s` it leads to are met once each, and the place is in none of
    them -/
def Holds (h : GHeap) (pl : Place) (v : JV) (s : List Nat) : Prop :=
  pl.addr < h.next ∧ pl.addr ∉ s ∧ s.Nodup ∧ (∀ a ∈ s, a < h.next) ∧ ∃ x, h.get pl = some x ∧ Own h x v s

/-- `h'` differs from `h` at the place, in the objects `s` and in new objects -/
def ChangedAt (h : GHeap) (pl : Place) (s : List Nat) (h' : GHeap) : Prop :=
  h.next ≤ h'.next ∧ (∀ b < h.next, b ∉ s → b ≠ pl.addr → h'.mem b = h.mem b) ∧
  ∃ y, h'.mem pl.addr = (h.mem pl.addr).put pl.path y

/-- what the place leads to after that -/
def Leads (h : GHeap) (pl : Place) (s : List Nat) (v' : JV) (h' : GHeap) : Prop :=
  ChangedAt h pl s h' ∧ ∃ s', Holds h' pl v' s' ∧ ∀ a ∈ s', a ∈ s ∨ h.next ≤ a

/-- the same fault, or the same place, with the same outcome -/
def Agree (h : GHeap) (pl : Place) (s : List Nat) (x : Res (JV × Reader)) (y : Res (Place × GHeap × Reader)) :
    Prop :=
  match x with
  | .ok p => ∃ h', y = .ok (pl, h', p.2) ∧ Leads h pl s p.1 h'
  | .error e => y = .error e

theorem Holds.after {h : GHeap} {pl : Place} {v : JV} {s : List Nat} (hh : Holds h pl v s) : Leads h pl s v h := by
  obtain ⟨h1, h2, h3, h4, x, h5, h6⟩ := hh
  exact ⟨⟨Nat.le_refl _, fun _ _ _ _ => rfl, x, (put_sub _ h5).symm⟩, s, ⟨h1, h2, h3, h4, x, h5, h6⟩,
    fun a ha => Or.inl ha⟩

theorem ChangedAt.trans {h h1 h2 : GHeap} {pl : Place} {s s1 : List Nat} (a1 : ChangedAt h pl s h1)
    (hs : ∀ a ∈ s1, a ∈ s ∨ h.next ≤ a) (a2 : ChangedAt h1 pl s1 h2) : ChangedAt h pl s h2 := by
  obtain ⟨e1, e2, y, e3⟩ := a1
  obtain ⟨f1, f2, z, f3⟩ := a2
  refine ⟨Nat.le_trans e1 f1, fun b hb hbs hbp => ?_, z, by rw [f3, e3, put_put]⟩
  rw [f2 b (Nat.lt_of_lt_of_le hb e1) (fun hm => ?_) hbp, e2 b hb hbs hbp]
  rcases hs b hm with hm | hm
  · exact hbs hm
  · omega

theorem put_mem_ne (h : GHeap) (pl : Place) (x : GV) {b : Nat} (hb : b ≠ pl.addr) : (h.put pl x).mem b = h.mem b := by
  simp [GHeap.put, hb]

theorem put_get {h : GHeap} {pl : Place} {y : GV} (x : GV) (hy : h.get pl = some y) : (h.put pl x).get pl = some x := by
  simp only [GHeap.put, GHeap.get, if_true]
  exact sub_put _ _ hy

/-- a store of something to a place whose other objects are untouched -/
theorem Leads.store {h h1 : GHeap} {pl : Place} {s t : List Nat} {w : JV} {x y : GV} (hp : pl.addr < h.next)
    (hn : h.next ≤ h1.next)
    (hf : ∀ b < h.next, b ∉ s → b ≠ pl.addr → h1.mem b = h.mem b) (hy : h1.get pl = some y)
    (hm : ∃ z, h1.mem pl.addr = (h.mem pl.addr).put pl.path z)
    (ho : Own h1 x w t) (ht : t.Nodup) (htl : ∀ a ∈ t, a < h1.next) (hpt : pl.addr ∉ t)
    (hts : ∀ a ∈ t, a ∈ s ∨ h.next ≤ a) : Leads h pl s w (h1.put pl x) := by
  obtain ⟨z, hz⟩ := hm
  refine ⟨⟨hn, fun b hb hbs hbp => ?_, x, ?_⟩, t, ⟨Nat.lt_of_lt_of_le hp hn, hpt, ht, htl, x, put_get x hy, ?_⟩, hts⟩
  · rw [put_mem_ne _ _ _ hbp, hf b hb hbs hbp]
  · simp only [GHeap.put, if_true, hz, put_put]
  · exact ho.frame fun a ha => put_mem_ne _ _ _ fun hh => hpt (hh ▸ ha)

/-- storing a value without pointers -/
theorem Holds.scalar {h : GHeap} {pl : Place} {v w : JV} {s : List Nat} {x : GV} (hh : Holds h pl v s)
    (ho : Own h x w []) : Leads h pl s w (h.put pl x) := by
  obtain ⟨h1, h2, h3, h4, y, h5, h6⟩ := hh
  exact Leads.store h1 (Nat.le_refl _) (fun _ _ _ _ => rfl) h5 ⟨y, (put_sub _ h5).symm⟩ ho List.nodup_nil (by simp)
    (by simp) (by simp)

/-- custom parsers do to the objects what they do to the tree -/
def ParsesAlike (g : GEnv) : Prop := ∀ ty name,
  (g.parseFn ty name = none ↔ g.env.parseFn ty name = none) ∧
  ∀ f f', g.parseFn ty name = some f → g.env.parseFn ty name = some f' →
    ∀ h pl v s r, Holds h pl v s → Sim (fun v' h' => Leads h pl s v' h') (f' v r) (f pl h r)

/-- the pointers are smart pointers, and no untyped `Value`s are parsed -/
def SmartOnly (g : GEnv) (c : PCache) : Prop := ∀ ty st, Assoc.get c ty = some st →
  st.kind ≠ .value ∧ (st.kind = .pointer → g.smart ty = true)

theorem Agree.bind {α : Type} {h : GHeap} {pl : Place} {s : List Nat} {x : Res α} {f : α → Res (JV × Reader)}
    {g : α → Res (Place × GHeap × Reader)} (hf : ∀ a, x = .ok a → Agree h pl s (f a) (g a)) :
    Agree h pl s (x >>= f) (x >>= g) := by
  cases x with
  | error e => exact rfl
  | ok a => exact hf a rfl

/-- an object made for a pointer, an array or a map: what is parsed into it -/
theorem Sim.made {h : GHeap} {v : JV} : ∃ m h1 s1, (build v h).2.new (build v h).1 = (h1, m) ∧ Grows h h1 ∧
    h.next ≤ m ∧ Holds h1 ⟨m, []⟩ v s1 ∧ (∀ a ∈ s1, h.next ≤ a) := by
  obtain ⟨m, h1, s1, e1, e2, e3, e4, e5, e6, e7⟩ := made_own v h
  exact ⟨m, h1, s1, e1, e2, e3, ⟨e4, e5, e7.1, fun a ha => (e7.2 a ha).2, _, rfl, e6⟩, fun a ha => (e7.2 a ha).1⟩

/-- parsing into it leaves what was there before -/
theorem Leads.grows {h h1 h2 : GHeap} {m : Nat} {s1 : List Nat} {w : JV} (g1 : Grows h h1) (hm : h.next ≤ m)
    (hs : ∀ a ∈ s1, h.next ≤ a) (l : Leads h1 ⟨m, []⟩ s1 w h2) :
    Grows h h2 ∧ ∃ t, Own h2 (h2.mem m) w t ∧ t.Nodup ∧ (∀ a ∈ t, h.next ≤ a ∧ a < h2.next) ∧ m ∉ t ∧ m < h2.next := by
  obtain ⟨⟨e1, e2, _⟩, t, ⟨f1, f2, f3, f4, x, f5, f6⟩, f7⟩ := l
  refine ⟨⟨Nat.le_trans g1.1 e1, fun b hb => ?_⟩, t, ?_, f3, fun a ha => ⟨?_, f4 a ha⟩, f2, f1⟩
  · rw [e2 b (Nat.lt_of_lt_of_le hb g1.1) (fun hh => by have := hs b hh; omega) (by simp; omega), g1.2 b hb]
  · simp only [GHeap.get, GV.sub, Option.some.injEq] at f5
    rw [f5]; exact f6
  · have := g1.1
    rcases f7 a ha with hh | hh
    · exact hs a hh
    · omega

theorem drop_mem_ne (h : GHeap) (m : Nat) {b : Nat} (hb : b ≠ m) : (h.drop m).mem b = h.mem b := by
  simp [GHeap.drop, hb]

theorem Leads.drop {h h' : GHeap} {pl : Place} {s t : List Nat} {v : JV} {m : Nat} (hp : pl.addr < h.next)
    (hm : h.next ≤ m) (ha : ChangedAt h pl s h') (hh : Holds h' pl v t) (hmt : m ∉ t)
    (hts : ∀ a ∈ t, a ∈ s ∨ h.next ≤ a) : Leads h pl s v (h'.drop m) := by
  obtain ⟨e1, e2, y, e3⟩ := ha
  obtain ⟨f1, f2, f3, f4, x, f5, f6⟩ := hh
  have hne : pl.addr ≠ m := by omega
  refine ⟨⟨e1, fun b hb hbs hbp => ?_, y, by rw [drop_mem_ne _ _ hne, e3]⟩, t, ⟨f1, f2, f3, f4, x, ?_, ?_⟩, hts⟩
  · rw [drop_mem_ne _ _ (by omega), e2 b hb hbs hbp]
  · simp only [GHeap.get, drop_mem_ne _ _ hne]; exact f5
  · exact f6.frame fun a ha => drop_mem_ne _ _ fun hh => hmt (hh ▸ ha)

theorem get_grows {h h' : GHeap} {pl : Place} (hp : pl.addr < h.next) (g : Grows h h') : h'.get pl = h.get pl := by
  simp only [GHeap.get, g.2 _ hp]

/-- one more element, or entry, of what the place holds -/
theorem Leads.extend {h0 h h' : GHeap} {pl : Place} {s0 s t s' : List Nat} {w' : JV} {x x' : GV} {m : Nat}
    (a0 : ChangedAt h0 pl s0 h) (hp0 : pl.addr < h0.next) (hs : ∀ a ∈ s, a ∈ s0 ∨ h0.next ≤ a)
    (hpl : pl.addr < h.next) (hps : pl.addr ∉ s) (hsl : ∀ a ∈ s, a < h.next)
    (hx : h.get pl = some x) (g : Grows h h') (hm : h.next ≤ m)
    (ht : ∀ a ∈ t, h.next ≤ a ∧ a < h'.next) (hmt : m ∉ t)
    (ho : Own h' x' w' s') (hs' : ∀ a ∈ s', a ∈ s ∨ a ∈ t) (hnd : s'.Nodup) :
    Leads h0 pl s0 w' ((h'.put pl x').drop m) := by
  obtain ⟨e1, e2, y, e3⟩ := a0
  have l : Leads h0 pl s0 w' (h'.put pl x') := by
    refine Leads.store (y := x) hp0 (Nat.le_trans e1 g.1) (fun b hb hbs hbp => ?_) ?_ ⟨y, ?_⟩ ho hnd (fun a ha => ?_) ?_ ?_
    · rw [g.2 b (Nat.lt_of_lt_of_le hb e1), e2 b hb hbs hbp]
    · rw [get_grows hpl g, hx]
    · rw [g.2 _ hpl, e3]
    · have := g.1
      rcases hs' a ha with hh | hh
      · have := hsl a hh; omega
      · exact (ht a hh).2
    · intro hh
      rcases hs' _ hh with hh | hh
      · exact hps hh
      · have := ht _ hh; omega
    · intro a ha
      rcases hs' a ha with hh | hh
      · exact hs a hh
      · have := ht _ hh; omega
  obtain ⟨l1, t', l2, l3⟩ := l
  refine Leads.drop hp0 (Nat.le_trans e1 hm) l1 l2 ?_ l3
  obtain ⟨_, f2, _, _, z, f5, f6⟩ := l2
  have hz : z = x' := by
    have := put_get x' (show h'.get pl = some x by rw [get_grows hpl g, hx])
    rw [this] at f5
    exact (Option.some.inj f5).symm
  subst hz
  have hps' : pl.addr ∉ s' := by
    intro hh
    rcases hs' _ hh with hh | hh
    · exact hps hh
    · have := ht _ hh; omega
  have := (ho.frame (h' := h'.put pl z) fun a ha => put_mem_ne _ _ _ fun hh => hps' (hh ▸ ha)).unique f6
  rw [← this.2]
  intro hh
  rcases hs' _ hh with hh | hh
  · have := hsl _ hh; omega
  · exact hmt hh

theorem Agree.of_sim {σ : Type} {h : GHeap} {pl : Place} {s : List Nat} {wrap : σ → JV} {x : Res (σ × Reader)}
    {y : Res (GHeap × Reader)} (hs : Sim (fun a h' => Leads h pl s (wrap a) h') x y) :
    Agree h pl s (x >>= fun q => .ok (wrap q.1, q.2)) (y >>= fun q => .ok (pl, q.1, q.2)) := by
  cases x with
  | error e => rw [show y = .error e from hs]; exact rfl
  | ok q =>
    obtain ⟨h', e1, e2⟩ := hs
    rw [e1]
    exact ⟨h', rfl, e2⟩

theorem parse_agree (g : GEnv) (hc : ParsesAlike g) (c : PCache) (hp : SmartOnly g c) :
    ∀ (n : Nat) (ty : TyId) (pl : Place) (v : JV) (s : List Nat) (h : GHeap) (r : Reader), Holds h pl v s →
    Agree h pl s (parseV g.env c n ty v r) (parseG g c n ty pl h r)
  | 0, ty, pl, v, s, h, r, _ => rfl
  | n + 1, ty, pl, v, s, h, r, hh => by
    have ih := fun ty pl v s h r hh => parse_agree g hc c hp n ty pl v s h r hh
    rw [parseV.eq_def, parseG.eq_def]
    simp only
    cases hst : Assoc.get c ty with
    | none => exact rfl
    | some st =>
      obtain ⟨hk1, hk2⟩ := hp ty st hst
      obtain ⟨kind, inner, keys, fields, fn⟩ := st
      simp only at hk1 hk2 ⊢
      have hh0 := hh
      obtain ⟨h1, h2, h3, h4, x, h5, h6⟩ := hh0
      have sc : ∀ (w : JV) (y : GV), Own h y w [] → Leads h pl s w (h.put pl y) := fun w y hy => hh.scalar hy
      cases kind with
      | bool =>
        refine Agree.bind fun p _ => ?_
        split
        · exact ⟨_, rfl, sc _ _ ⟨1, rfl, rfl⟩⟩
        · exact rfl
      | int =>
        refine Agree.bind fun p _ => ?_
        split
        · exact ⟨_, rfl, sc _ _ ⟨1, rfl, rfl⟩⟩
        · exact rfl
      | float =>
        refine Agree.bind fun p _ => Agree.bind fun q _ => ?_
        split
        · exact ⟨_, rfl, sc _ _ ⟨1, rfl, rfl⟩⟩
        · exact rfl
      | string =>
        refine Agree.bind fun p _ => ?_
        split
        · exact ⟨_, rfl, sc _ _ ⟨1, rfl, rfl⟩⟩
        · exact rfl
      | pointer =>
        simp only [hk2 rfl, if_true]
        refine Agree.bind fun p _ => ?_
        split
        · refine Agree.bind fun q _ => ?_
          exact ⟨_, rfl, sc _ _ ⟨1, rfl, rfl⟩⟩
        · rw [h5]
          cases inner with
          | none => exact rfl
          | some t =>
            obtain ⟨k1, k2, k3, k4, k5, k6, k7, k8, k9, k10⟩ := own_kind h6
            cases v with
            | ptr w =>
              obtain ⟨a, rfl⟩ := k4 w rfl
              obtain ⟨w', t', e1, rfl, e3⟩ := own_ptr.1 h6
              cases e1
              simp only
              have hold : Holds h ⟨a, []⟩ w t' := by
                refine ⟨h4 a (by simp), (List.nodup_cons.1 h3).1, (List.nodup_cons.1 h3).2,
                  fun b hb => h4 b (by simp [hb]), _, rfl, e3⟩
              have := ih t ⟨a, []⟩ w t' h p.2 hold
              cases hv : parseV g.env c n t w p.2 with
              | error e => rw [hv] at this; rw [show parseG g c n t ⟨a, []⟩ h p.2 = .error e from this]; exact rfl
              | ok q =>
                rw [hv] at this
                obtain ⟨h', f1, ⟨f2, f3, _⟩, s', ⟨f5, f6, f7, f8, y, f9, f10⟩, f11⟩ := this
                rw [f1]
                simp only [okb]
                simp only [GHeap.get, GV.sub, Option.some.injEq] at f9
                have hpa : pl.addr ≠ a := fun hh => h2 (by simp [hh])
                have hpu : h'.mem pl.addr = h.mem pl.addr := f3 _ h1 (fun hh => h2 (by simp [hh])) hpa
                refine ⟨h', rfl, ⟨f2, fun b hb hbs hbp => ?_, .ptr a, ?_⟩, a :: s', ⟨?_, ?_, ?_, ?_, .ptr a, ?_, ?_⟩, ?_⟩
                · exact f3 b hb (fun hh => hbs (by simp [hh])) (fun hh => hbs (by simp at hh; simp [hh]))
                · rw [hpu, put_sub _ h5]
                · exact Nat.lt_of_lt_of_le h1 f2
                · intro hm
                  rcases List.mem_cons.1 hm with hm | hm
                  · exact hpa hm
                  · rcases f11 _ hm with hm | hm
                    · exact h2 (by simp [hm])
                    · omega
                · exact List.nodup_cons.2 ⟨f6, f7⟩
                · intro b hb
                  rcases List.mem_cons.1 hb with rfl | hb
                  · exact f5
                  · exact f8 b hb
                · simp only [GHeap.get, hpu]; exact h5
                · exact own_ptr.2 ⟨_, s', rfl, rfl, by rw [f9]; exact f10⟩
                · intro b hb
                  rcases List.mem_cons.1 hb with rfl | hb
                  · simp
                  · rcases f11 _ hb with hm | hm
                    · exact Or.inl (by simp [hm])
                    · exact Or.inr hm
            | null =>
              obtain rfl := k5 rfl
              simp only
              unfold GEnv.allocate
              cases hv : g.env.allocate t with
              | error e => exact rfl
              | ok d =>
                simp only [okb]
                obtain ⟨m, h', s1, e1, e2, e3, e4, e5⟩ := Sim.made (h := h) (v := d)
                rw [e1]
                simp only
                have := ih t ⟨m, []⟩ d s1 h' p.2 e4
                cases hv : parseV g.env c n t d p.2 with
                | error e => rw [hv] at this; rw [show parseG g c n t ⟨m, []⟩ h' p.2 = .error e from this]; exact rfl
                | ok q =>
                  rw [hv] at this
                  obtain ⟨h'', f1, f2⟩ := this
                  rw [f1]
                  obtain ⟨g2, t', f3, f4, f5, f6, f7⟩ := f2.grows e2 e3 e5
                  simp only [okb]
                  refine ⟨_, rfl, Leads.store (t := m :: t') h1 g2.1 (fun b hb _ _ => g2.2 b hb) (y := .null) ?_ ⟨.null, ?_⟩
                    ?_ ?_ ?_ ?_ ?_⟩
                  · rw [get_grows h1 g2, h5]
                  · rw [g2.2 _ h1, put_sub _ h5]
                  · exact own_ptr.2 ⟨_, t', rfl, rfl, f3⟩
                  · exact List.nodup_cons.2 ⟨f6, f4⟩
                  · intro b hb
                    rcases List.mem_cons.1 hb with rfl | hb
                    · exact f7
                    · exact (f5 b hb).2
                  · intro hb
                    rcases List.mem_cons.1 hb with hb | hb
                    · omega
                    · have := f5 _ hb; omega
                  · intro b hb
                    rcases List.mem_cons.1 hb with rfl | hb
                    · exact Or.inr e3
                    · exact Or.inr (f5 b hb).1
            | _ =>
              cases x with
              | ptr a => obtain ⟨w, hw⟩ := k9 a rfl; cases hw
              | null => have := k10 rfl; cases this
              | _ => exact rfl
      | list =>
        rw [h5]
        cases inner with
        | none =>
          obtain ⟨k1, k2, k3, k4, k5, k6, k7, k8, k9, k10⟩ := own_kind h6
          cases v with
          | list vs =>
            obtain ⟨xs, rfl⟩ := k1 vs rfl
            simp only
            exact Agree.of_sim (wrap := .list) (parseArray_sim (by intro _ _ _ _ _; exact rfl) n vs h r hh.after)
          | _ =>
            cases x with
            | list a => obtain ⟨w, hw⟩ := k6 a rfl; cases hw
            | _ => exact rfl
        | some t =>
          obtain ⟨k1, k2, k3, k4, k5, k6, k7, k8, k9, k10⟩ := own_kind h6
          cases v with
          | list vs =>
            obtain ⟨xs, rfl⟩ := k1 vs rfl
            simp only
            refine Agree.of_sim (wrap := .list) (parseArray_sim ?_ n vs h r hh.after)
            · intro _ ws h' r' l
              obtain ⟨a0, s', ⟨l1, l2, l3, l4, y, l5, l6⟩, l7⟩ := l
              obtain ⟨ys, rfl⟩ := (own_kind l6).1 ws rfl
              obtain ⟨ws', e0, l6⟩ := own_list.1 l6
              cases e0
              unfold GEnv.construct
              cases hv : g.env.construct t with
              | error e => exact rfl
              | ok d =>
                simp only [okb]
                obtain ⟨m, h1', s1, e1, e2, e3, e4, e5⟩ := Sim.made (h := h') (v := d)
                rw [e1]
                simp only
                have := ih t ⟨m, []⟩ d s1 h1' r' e4
                cases hv : parseV g.env c n t d r' with
                | error e => rw [hv] at this; rw [show parseG g c n t ⟨m, []⟩ h1' r' = .error e from this]; exact rfl
                | ok q =>
                  rw [hv] at this
                  obtain ⟨h2', f1, f2⟩ := this
                  rw [f1]
                  obtain ⟨g2, t', f3, f4, f5, f6, f7⟩ := f2.grows e2 e3 e5
                  simp only [okb]
                  cases q.2.ok with
                  | true =>
                    simp only [if_true, get_grows l1 g2, l5]
                    refine ⟨_, rfl, Leads.extend (t := t') (s' := s' ++ t') a0 h1 l7 l1 l2 l4 l5 g2 e3 f5 f6
                      (own_list.2 ⟨_, rfl, (OwnL.frame l6 fun a ha => g2.2 a (l4 a ha)).append f3⟩)
                      (fun a ha => List.mem_append.1 ha)
                      (List.nodup_append.2 ⟨l3, f4, fun a ha b hb hab => ?_⟩)⟩
                    have := l4 a ha; have := f5 b hb; omega
                  | false =>
                    simp only [Bool.false_eq_true, if_false]
                    refine ⟨_, rfl, Leads.drop h1 (Nat.le_trans a0.1 e3) (a0.trans (s1 := s') l7 ?_) (t := s') ?_ ?_ l7⟩
                    · exact ⟨g2.1, fun b hb _ _ => g2.2 b hb, .list ys, by rw [g2.2 _ l1, put_sub _ l5]⟩
                    · refine ⟨Nat.lt_of_lt_of_le l1 g2.1, l2, l3, fun a ha => Nat.lt_of_lt_of_le (l4 a ha) g2.1, .list ys,
                        by rw [get_grows l1 g2, l5], ?_⟩
                      exact own_list.2 ⟨_, rfl, OwnL.frame l6 fun a ha => g2.2 a (l4 a ha)⟩
                    · intro hm; have := l4 m hm; omega
          | _ =>
            cases x with
            | list a => obtain ⟨w, hw⟩ := k6 a rfl; cases hw
            | _ => exact rfl
      | map =>
        rw [h5]
        cases inner with
        | none =>
          obtain ⟨k1, k2, k3, k4, k5, k6, k7, k8, k9, k10⟩ := own_kind h6
          cases v with
          | map vs =>
            obtain ⟨xs, rfl⟩ := k2 vs rfl
            simp only
            exact Agree.of_sim (wrap := .map) (parseObject_sim (by intro _ _ _ _ _; exact rfl) n vs h r hh.after)
          | _ =>
            cases x with
            | map a => obtain ⟨w, hw⟩ := k7 a rfl; cases hw
            | _ => exact rfl
        | some t =>
          obtain ⟨k1, k2, k3, k4, k5, k6, k7, k8, k9, k10⟩ := own_kind h6
          cases v with
          | map vs =>
            obtain ⟨xs, rfl⟩ := k2 vs rfl
            simp only
            refine Agree.of_sim (wrap := .map) (parseObject_sim ?_ n vs h r hh.after)
            · intro k ws h' r' l
              obtain ⟨a0, s', ⟨l1, l2, l3, l4, y, l5, l6⟩, l7⟩ := l
              obtain ⟨ys, rfl⟩ := (own_kind l6).2.1 ws rfl
              obtain ⟨ws', e0, l6⟩ := own_map.1 l6
              cases e0
              unfold GEnv.construct
              cases hv : g.env.construct t with
              | error e => exact rfl
              | ok d =>
                simp only [okb]
                obtain ⟨m, h1', s1, e1, e2, e3, e4, e5⟩ := Sim.made (h := h') (v := d)
                rw [e1]
                simp only
                have := ih t ⟨m, []⟩ d s1 h1' r' e4
                cases hv : parseV g.env c n t d r' with
                | error e => rw [hv] at this; rw [show parseG g c n t ⟨m, []⟩ h1' r' = .error e from this]; exact rfl
                | ok q =>
                  rw [hv] at this
                  obtain ⟨h2', f1, f2⟩ := this
                  rw [f1]
                  obtain ⟨g2, t', f3, f4, f5, f6, f7⟩ := f2.grows e2 e3 e5
                  simp only [okb]
                  cases q.2.ok with
                  | true =>
                    simp only [if_true, get_grows l1 g2, l5]
                    obtain ⟨s2, p1, p2, p3⟩ := OwnM.put (k := k) f3 (OwnM.frame l6 fun a ha => g2.2 a (l4 a ha))
                    refine ⟨_, rfl, Leads.extend (t := t') (s' := s2) a0 h1 l7 l1 l2 l4 l5 g2 e3 f5 f6
                      (own_map.2 ⟨_, rfl, p1⟩) p2 (p3 l3 f4 fun a ha hb => ?_)⟩
                    have := l4 a ha; have := f5 a hb; omega
                  | false =>
                    simp only [Bool.false_eq_true, if_false]
                    refine ⟨_, rfl, Leads.drop h1 (Nat.le_trans a0.1 e3) (a0.trans (s1 := s') l7 ?_) (t := s') ?_ ?_ l7⟩
                    · exact ⟨g2.1, fun b hb _ _ => g2.2 b hb, .map ys, by rw [g2.2 _ l1, put_sub _ l5]⟩
                    · refine ⟨Nat.lt_of_lt_of_le l1 g2.1, l2, l3, fun a ha => Nat.lt_of_lt_of_le (l4 a ha) g2.1, .map ys,
                        by rw [get_grows l1 g2, l5], ?_⟩
                      exact own_map.2 ⟨_, rfl, OwnM.frame l6 fun a ha => g2.2 a (l4 a ha)⟩
                    · intro hm; have := l4 m hm; omega
          | _ =>
            cases x with
            | map a => obtain ⟨w, hw⟩ := k7 a rfl; cases hw
            | _ => exact rfl
      | object =>
        rw [h5]
        obtain ⟨k1, k2, k3, k4, k5, k6, k7, k8, k9, k10⟩ := own_kind h6
        cases v with
        | obj vs =>
          obtain ⟨xs, rfl⟩ := k3 vs rfl
          simp only
          refine Agree.of_sim (wrap := .obj) (parseObject_sim ?_ n vs h r hh.after)
          · intro a ws h' r' l
            have l0 := l
            obtain ⟨a0, s', ⟨l1, l2, l3, l4, y, l5, l6⟩, l7⟩ := l
            obtain ⟨ys, rfl⟩ := (own_kind l6).2.2.1 ws rfl
            obtain ⟨ws', e0, l6⟩ := own_obj.1 l6
            cases e0
            cases Assoc.get keys a with
            | none =>
              simp only
              cases skip n r' with
              | error e => exact rfl
              | ok r2 => exact ⟨h', rfl, l0⟩
            | some k =>
              simp only
              cases Assoc.get fields k with
              | none => exact rfl
              | some t =>
                simp only
                have hsub : h'.get ⟨pl.addr, pl.path ++ [k]⟩ = Assoc.get ys k := sub_append _ k l5
                obtain ⟨m1, m2⟩ := ownM_get k l6
                rw [hsub]
                cases hw : Assoc.get ws k with
                | none => rw [m2 hw]; exact rfl
                | some w =>
                  obtain ⟨z, s1, tt, s2, n1, rfl, n3, n4⟩ := m1 w hw
                  rw [n1]
                  simp only
                  rw [List.nodup_append, List.nodup_append] at l3
                  obtain ⟨⟨d1, d2, d3⟩, d4, d5⟩ := l3
                  have hold : Holds h' ⟨pl.addr, pl.path ++ [k]⟩ w tt :=
                    ⟨l1, fun hh => l2 (by simp [hh]), d2, fun b hb => l4 b (by simp [hb]), z, by rw [hsub, n1], n3⟩
                  have := ih t ⟨pl.addr, pl.path ++ [k]⟩ w tt h' r' hold
                  cases hv : parseV g.env c n t w r' with
                  | error e =>
                    rw [hv] at this
                    rw [show parseG g c n t ⟨pl.addr, pl.path ++ [k]⟩ h' r' = .error e from this]; exact rfl
                  | ok q =>
                    rw [hv] at this
                    obtain ⟨h2', f1, ⟨f2, f3, yy, f4⟩, t', ⟨f5, f6, f7, f8, zz, f9, f10⟩, f11⟩ := this
                    rw [f1]
                    simp only [okb]
                    simp only at f3 f4 f5 f6
                    have hzz : zz = yy := by
                      simp only [GHeap.get, f4] at f9
                      rw [sub_put _ yy (show (h'.mem pl.addr).sub (pl.path ++ [k]) = some z by
                        rw [← n1]; exact hsub)] at f9
                      exact (Option.some.inj f9).symm
                    subst hzz
                    have hmem : h2'.mem pl.addr = (h'.mem pl.addr).put pl.path (.obj (gset ys k zz)) := by
                      rw [f4]; exact put_append _ k zz l5 n1
                    have hfr : ∀ b ∈ s1 ++ s2, h2'.mem b = h'.mem b := by
                      intro b hb
                      have hb' : b ∈ s1 ++ tt ++ s2 := by
                        simp at hb ⊢; rcases hb with hb | hb <;> simp [hb]
                      refine f3 b (l4 b hb') (fun hm => ?_) (fun hm => l2 (hm ▸ hb'))
                      rcases List.mem_append.1 hb with hb | hb
                      · exact d3 b hb b hm rfl
                      · exact d5 b (by simp [hm]) b hb rfl
                    have haft : ChangedAt h' pl (s1 ++ tt ++ s2) h2' :=
                      ⟨f2, fun b hb hbs hbp => f3 b hb (fun hm => hbs (by simp [hm])) hbp, _, hmem⟩
                    have hsub' : ∀ b ∈ s1 ++ t' ++ s2, b ∈ s1 ++ tt ++ s2 ∨ h'.next ≤ b := by
                      intro b hb
                      simp only [List.mem_append] at hb ⊢
                      rcases hb with (hb | hb) | hb
                      · simp [hb]
                      · rcases f11 b hb with hb | hb
                        · simp [hb]
                        · exact Or.inr hb
                      · simp [hb]
                    refine ⟨h2', rfl, a0.trans l7 haft, s1 ++ t' ++ s2,
                      ⟨f5, fun hm => ?_, ?_, fun b hb => ?_, .obj (gset ys k zz), ?_, ?_⟩, fun b hb => ?_⟩
                    · rcases hsub' _ hm with hm | hm
                      · exact l2 hm
                      · omega
                    · rw [List.nodup_append, List.nodup_append]
                      refine ⟨⟨d1, f7, fun b hb b' hb' hbb => ?_⟩, d4, fun b hb b' hb' hbb => ?_⟩
                      · subst hbb
                        rcases f11 b hb' with hm | hm
                        · exact d3 b hb b hm rfl
                        · have := l4 b (by simp [hb]); omega
                      · subst hbb
                        rcases List.mem_append.1 hb with hb | hb
                        · exact d5 b (by simp [hb]) b hb' rfl
                        · rcases f11 b hb with hm | hm
                          · exact d5 b (by simp [hm]) b hb' rfl
                          · have := l4 b (by simp [hb']); omega
                    · simp only [List.mem_append] at hb
                      rcases hb with (hb | hb) | hb
                      · exact Nat.lt_of_lt_of_le (l4 b (by simp [hb])) f2
                      · exact f8 b hb
                      · exact Nat.lt_of_lt_of_le (l4 b (by simp [hb])) f2
                    · simp only [GHeap.get, hmem]
                      exact sub_put _ _ l5
                    · exact own_obj.2 ⟨_, rfl, n4 h2' zz q.1 t' hfr f10⟩
                    · rcases hsub' b hb with hm | hm
                      · exact l7 b hm
                      · exact Or.inr (Nat.le_trans a0.1 hm)
        | _ =>
          cases x with
          | obj a => obtain ⟨w, hw⟩ := k8 a rfl; cases hw
          | _ => exact rfl
      | custom =>
        cases fn with
        | none => exact rfl
        | some name =>
          simp only
          obtain ⟨c1, c2⟩ := hc ty name
          cases hf : g.parseFn ty name with
          | none => rw [c1.1 hf]; exact rfl
          | some f =>
            cases hf' : g.env.parseFn ty name with
            | none => rw [c1.2 hf'] at hf; cases hf
            | some f' =>
              simp only
              have := c2 f f' hf hf' h pl v s r hh
              cases hv : f' v r with
              | error e => rw [hv] at this; rw [show f pl h r = .error e from this]; exact rfl
              | ok q =>
                rw [hv] at this
                obtain ⟨h', e1, e2⟩ := this
                rw [e1]
                exact ⟨h', rfl, e2⟩
      | value => exact absurd rfl hk1

end Reflect.Json
