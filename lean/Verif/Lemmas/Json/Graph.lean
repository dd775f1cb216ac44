import Verif.Spec.JsonGraph
/-
  Stored values and the trees they read as.
-/
namespace Reflect.Json

theorem collect_length {α β : Type} {f : α → Option β} : ∀ {xs : List α} {ys : List β}, collect f xs = some ys →
    xs.length = ys.length
  | [], ys, h => by simp [collect] at h; subst h; rfl
  | x :: xs, ys, h => by
    unfold collect at h
    split at h
    · rename_i y zs h1 h2
      simp only [Option.some.injEq] at h
      subst h
      simp [collect_length h2]
    · cases h

theorem collect_cons {α β : Type} {f : α → Option β} {x : α} {xs : List α} {zs : List β} :
    collect f (x :: xs) = some zs ↔ ∃ y ys, zs = y :: ys ∧ f x = some y ∧ collect f xs = some ys := by
  simp only [collect]
  constructor
  · intro h
    split at h
    · rename_i y ys h1 h2
      simp only [Option.some.injEq] at h
      exact ⟨y, ys, h.symm, h1, h2⟩
    · cases h
  · rintro ⟨y, ys, rfl, h1, h2⟩; simp [h1, h2]

theorem collect_mono {α β : Type} {f f' : α → Option β} : ∀ {xs : List α} {ys : List β},
    (∀ x ∈ xs, ∀ y, f x = some y → f' x = some y) → collect f xs = some ys → collect f' xs = some ys
  | [], ys, _, h => by simpa [collect] using h
  | x :: xs, zs, hf, h => by
    obtain ⟨y, ys, rfl, h1, h2⟩ := collect_cons.1 h
    exact collect_cons.2 ⟨y, ys, rfl, hf x (by simp) y h1,
      collect_mono (fun x hx => hf x (by simp [hx])) h2⟩

theorem collect_congr {α β : Type} {f f' : α → Option β} : ∀ {xs : List α}, (∀ x ∈ xs, f x = f' x) →
    collect f xs = collect f' xs
  | [], _ => rfl
  | x :: xs, hf => by
    simp only [collect]
    rw [hf x (by simp), collect_congr (fun x hx => hf x (by simp [hx]))]

theorem collect_append {α β : Type} {f : α → Option β} : ∀ {xs xs' : List α} {ys ys' : List β},
    collect f xs = some ys → collect f xs' = some ys' → collect f (xs ++ xs') = some (ys ++ ys')
  | [], xs', ys, ys', h, h' => by simp [collect] at h; subst h; simpa using h'
  | x :: xs, xs', zs, ys', h, h' => by
    obtain ⟨y, ys, rfl, h1, h2⟩ := collect_cons.1 h
    exact collect_cons.2 ⟨y, ys ++ ys', rfl, h1, collect_append h2 h'⟩

theorem entries_cons {α β : Type} {f : α → Option β} {k : Bytes} {x : α} {m : List (Bytes × α)}
    {zs : List (Bytes × β)} :
    entries f ((k, x) :: m) = some zs ↔ ∃ y ys, zs = (k, y) :: ys ∧ f x = some y ∧ entries f m = some ys := by
  unfold entries
  rw [collect_cons]
  constructor
  · rintro ⟨y, ys, rfl, h1, h2⟩
    simp only [Option.map_eq_some_iff] at h1
    obtain ⟨z, h3, rfl⟩ := h1
    exact ⟨z, ys, rfl, h3, h2⟩
  · rintro ⟨y, ys, rfl, h1, h2⟩
    exact ⟨(k, y), ys, rfl, by simp [h1], h2⟩

theorem entries_keys {α β : Type} {f : α → Option β} : ∀ {m : List (Bytes × α)} {ys : List (Bytes × β)},
    entries f m = some ys → ys.map (·.1) = m.map (·.1)
  | [], ys, h => by simp [entries, collect] at h; subst h; rfl
  | (k, x) :: m, zs, h => by
    obtain ⟨y, ys, rfl, h1, h2⟩ := entries_cons.1 h
    simp [entries_keys h2]

theorem entries_get {α β : Type} {f : α → Option β} (k : Bytes) : ∀ {m : List (Bytes × α)} {ys : List (Bytes × β)},
    entries f m = some ys →
    (∀ x, Assoc.get m k = some x → ∃ y, f x = some y ∧ Assoc.get ys k = some y) ∧
    (Assoc.get m k = none → Assoc.get ys k = none)
  | [], ys, h => by simp [entries, collect] at h; subst h; simp [Assoc.get]
  | (l, x) :: m, zs, h => by
    obtain ⟨y, ys, rfl, h1, h2⟩ := entries_cons.1 h
    obtain ⟨h3, h4⟩ := entries_get k h2
    simp only [Assoc.get_cons]
    by_cases hk : l = k
    · simp only [hk, if_true]
      exact ⟨fun z hz => ⟨y, by cases hz; exact h1, rfl⟩, fun hh => by cases hh⟩
    · simp only [hk, if_false]
      exact ⟨h3, h4⟩

/-- deeper reading reads the same, and meets the same objects -/
theorem reads_mono (h : GHeap) : ∀ (d : Nat) (x : GV) (v : JV), h.reads d x = some v →
    ∀ e, d ≤ e → h.reads e x = some v ∧ h.owns e x = h.owns d x
  | 0, x, v, hr, e, _ => by simp [GHeap.reads] at hr
  | d + 1, x, v, hr, 0, he => by omega
  | d + 1, x, v, hr, e + 1, he => by
    have ih := fun x v hr => reads_mono h d x v hr e (by omega)
    have ihl : ∀ (vs : List GV) (ws : List JV), collect (h.reads d) vs = some ws →
        collect (h.reads e) vs = some ws ∧ vs.flatMap (h.owns e) = vs.flatMap (h.owns d) := by
      intro vs
      induction vs with
      | nil => intro ws hw; exact ⟨by simpa [collect] using hw, rfl⟩
      | cons x xs ihx =>
        intro ws hw
        obtain ⟨y, ys, rfl, h1, h2⟩ := collect_cons.1 hw
        obtain ⟨h3, h4⟩ := ih x y h1
        obtain ⟨h5, h6⟩ := ihx ys h2
        exact ⟨collect_cons.2 ⟨y, ys, rfl, h3, h5⟩, by simp [h4, h6]⟩
    have ihm : ∀ (m : List (Bytes × GV)) (ws : List (Bytes × JV)), entries (h.reads d) m = some ws →
        entries (h.reads e) m = some ws ∧
          (m.flatMap fun p => h.owns e p.2) = m.flatMap fun p => h.owns d p.2 := by
      intro m
      induction m with
      | nil => intro ws hw; exact ⟨by simpa [entries, collect] using hw, rfl⟩
      | cons p m ihx =>
        obtain ⟨k, x⟩ := p
        intro ws hw
        obtain ⟨y, ys, rfl, h1, h2⟩ := entries_cons.1 hw
        obtain ⟨h3, h4⟩ := ih x y h1
        obtain ⟨h5, h6⟩ := ihx ys h2
        exact ⟨entries_cons.2 ⟨y, ys, rfl, h3, h5⟩, by simp [h4, h6]⟩
    cases x with
    | ptr a =>
      simp only [GHeap.reads, Option.map_eq_some_iff] at hr ⊢
      obtain ⟨w, h1, rfl⟩ := hr
      obtain ⟨h2, h3⟩ := ih _ _ h1
      exact ⟨⟨w, h2, rfl⟩, by simp [GHeap.owns, h3]⟩
    | list vs =>
      simp only [GHeap.reads, Option.map_eq_some_iff] at hr ⊢
      obtain ⟨w, h1, rfl⟩ := hr
      obtain ⟨h2, h3⟩ := ihl _ _ h1
      exact ⟨⟨w, h2, rfl⟩, by simp only [GHeap.owns]; exact h3⟩
    | map m =>
      simp only [GHeap.reads, Option.map_eq_some_iff] at hr ⊢
      obtain ⟨w, h1, rfl⟩ := hr
      obtain ⟨h2, h3⟩ := ihm _ _ h1
      exact ⟨⟨w, h2, rfl⟩, by simp only [GHeap.owns]; exact h3⟩
    | obj m =>
      simp only [GHeap.reads, Option.map_eq_some_iff] at hr ⊢
      obtain ⟨w, h1, rfl⟩ := hr
      obtain ⟨h2, h3⟩ := ihm _ _ h1
      exact ⟨⟨w, h2, rfl⟩, by simp only [GHeap.owns]; exact h3⟩
    | _ => exact ⟨by simpa [GHeap.reads] using hr, rfl⟩

theorem flatMap_congr {α β : Type} {f f' : α → List β} : ∀ {xs : List α}, (∀ x ∈ xs, f x = f' x) →
    xs.flatMap f = xs.flatMap f'
  | [], _ => rfl
  | x :: xs, h => by
    simp only [List.flatMap_cons]
    rw [h x (by simp), flatMap_congr (fun x hx => h x (by simp [hx]))]

/-- only the objects met matter -/
theorem reads_frame (h h' : GHeap) : ∀ (d : Nat) (x : GV), (∀ a ∈ h.owns d x, h'.mem a = h.mem a) →
    h'.reads d x = h.reads d x ∧ h'.owns d x = h.owns d x
  | 0, _, _ => ⟨rfl, rfl⟩
  | d + 1, x, hf => by
    have ih := fun x hx => reads_frame h h' d x hx
    have ihm : ∀ m : List (Bytes × GV), (∀ a ∈ m.flatMap (fun p => h.owns d p.2), h'.mem a = h.mem a) →
        entries (h'.reads d) m = entries (h.reads d) m ∧
          (m.flatMap fun p => h'.owns d p.2) = m.flatMap fun p => h.owns d p.2 := by
      intro m hm
      have : ∀ p ∈ m, h'.reads d p.2 = h.reads d p.2 ∧ h'.owns d p.2 = h.owns d p.2 :=
        fun p hp => ih p.2 fun a ha => hm a (List.mem_flatMap.2 ⟨p, hp, ha⟩)
      exact ⟨collect_congr fun p hp => by rw [(this p hp).1], flatMap_congr fun p hp => (this p hp).2⟩
    cases x with
    | ptr a =>
      have h1 : h'.mem a = h.mem a := hf a (by simp [GHeap.owns])
      obtain ⟨h2, h3⟩ := ih (h.mem a) fun b hb => hf b (by simp [GHeap.owns, hb])
      simp only [GHeap.reads, GHeap.owns, h1, h2, h3, and_self]
    | list vs =>
      have : ∀ p ∈ vs, h'.reads d p = h.reads d p ∧ h'.owns d p = h.owns d p :=
        fun p hp => ih p fun a ha => hf a (List.mem_flatMap.2 ⟨p, hp, ha⟩)
      simp only [GHeap.reads, GHeap.owns]
      exact ⟨by rw [collect_congr fun p hp => (this p hp).1], flatMap_congr fun p hp => (this p hp).2⟩
    | map m =>
      obtain ⟨h1, h2⟩ := ihm m hf
      simp only [GHeap.reads, GHeap.owns, h1, h2, and_self]
    | obj m =>
      obtain ⟨h1, h2⟩ := ihm m hf
      simp only [GHeap.reads, GHeap.owns, h1, h2, and_self]
    | _ => exact ⟨rfl, rfl⟩

/-! ### printing -/

theorem printItems_congr {α β : Type} {f : α → Writer → Res Writer} {f' : β → Writer → Res Writer} :
    ∀ {xs : List α} {ys : List β} {g : α → Option β}, collect g xs = some ys →
    (∀ x y w, g x = some y → f x w = f' y w) → ∀ first w, printItems f xs first w = printItems f' ys first w
  | [], ys, g, h, _, first, w => by simp [collect] at h; subst h; rfl
  | x :: xs, zs, g, h, hf, first, w => by
    obtain ⟨y, ys, rfl, h1, h2⟩ := collect_cons.1 h
    simp only [printItems]
    split
    · simp only [hf x y _ h1, printItems_congr h2 hf]
    · rfl

theorem printArray_congr {α β : Type} {f : α → Writer → Res Writer} {f' : β → Writer → Res Writer}
    {xs : List α} {ys : List β} {g : α → Option β} (h : collect g xs = some ys)
    (hf : ∀ x y w, g x = some y → f x w = f' y w) (w : Writer) : printArray f xs w = printArray f' ys w := by
  unfold printArray
  simp only [printItems_congr h hf, collect_length h]

theorem isEmpty_reads (g : GEnv) (c : WCache) (h : GHeap) : ∀ (n d : Nat) (ty : TyId) (x : GV) (v : JV),
    h.reads d x = some v → d ≤ n → isEmptyG g c h n ty x = isEmptyV g.env c v ty
  | n, 0, ty, x, v, hr, _ => by simp [GHeap.reads] at hr
  | 0, d + 1, ty, x, v, hr, hd => by omega
  | n + 1, d + 1, ty, x, v, hr, hd => by
    rw [isEmptyV.eq_def, isEmptyG.eq_def]
    simp only
    cases Assoc.get c ty with
    | none => rfl
    | some st =>
      obtain ⟨kind, inner, sk, se, ks, fs, fn⟩ := st
      simp only
      cases x with
      | ptr a =>
        simp only [GHeap.reads, Option.map_eq_some_iff] at hr
        obtain ⟨w, h1, rfl⟩ := hr
        cases kind <;> try rfl
        simp only
        cases inner with
        | none => rfl
        | some t => exact isEmpty_reads g c h n d t _ _ h1 (by omega)
      | list vs =>
        simp only [GHeap.reads, Option.map_eq_some_iff] at hr
        obtain ⟨w, h1, rfl⟩ := hr
        cases kind <;> try rfl
        have := collect_length h1
        cases vs <;> cases w <;> simp_all
      | map vs =>
        simp only [GHeap.reads, Option.map_eq_some_iff] at hr
        obtain ⟨w, h1, rfl⟩ := hr
        cases kind <;> try rfl
        have := congrArg List.length (entries_keys h1)
        cases vs <;> cases w <;> simp_all
      | obj vs =>
        simp only [GHeap.reads, Option.map_eq_some_iff] at hr
        obtain ⟨w, h1, rfl⟩ := hr
        cases kind <;> rfl
      | _ =>
        simp only [GHeap.reads, Option.some.injEq] at hr
        subst hr
        cases kind <;> rfl

/-- the custom printers print what the pointers lead to -/
def PrintsAlike (g : GEnv) : Prop := ∀ ty name,
  (g.printFn ty name = none ↔ g.env.printFn ty name = none) ∧
  ∀ f f', g.printFn ty name = some f → g.env.printFn ty name = some f' →
    ∀ h d x v w, h.reads d x = some v → f x h w = f' v w

theorem print_reads (g : GEnv) (hc : PrintsAlike g) (c : WCache) (h : GHeap) :
    ∀ (n d : Nat) (ty : TyId) (x : GV) (v : JV) (w : Writer),
    h.reads d x = some v → d ≤ n → printG g c h n ty x w = printV g.env c n ty v w
  | n, 0, ty, x, v, w, hr, _ => by simp [GHeap.reads] at hr
  | 0, d + 1, ty, x, v, w, hr, hd => by omega
  | n + 1, d + 1, ty, x, v, w, hr, hd => by
    have hr0 := hr
    have ih := fun ty x v w hr => print_reads g hc c h n d ty x v w hr (by omega)
    rw [printV.eq_def, printG.eq_def]
    simp only
    cases Assoc.get c ty with
    | none => rfl
    | some st =>
      obtain ⟨kind, inner, sk, se, ks, fs, fn⟩ := st
      simp only
      by_cases hk : kind = .custom
      · subst hk
        simp only
        cases fn with
        | none => rfl
        | some name =>
          simp only
          obtain ⟨h1, h2⟩ := hc ty name
          cases hf : g.printFn ty name with
          | none => rw [h1.1 hf]
          | some f =>
            cases hf' : g.env.printFn ty name with
            | none => rw [h1.2 hf'] at hf; cases hf
            | some f' => exact h2 f f' hf hf' h _ _ _ _ hr
      cases x with
      | ptr a =>
        simp only [GHeap.reads, Option.map_eq_some_iff] at hr
        obtain ⟨v', h1, rfl⟩ := hr
        cases kind <;> first | rfl | exact absurd rfl hk | skip
        simp only
        cases inner with
        | none => rfl
        | some t => exact ih t _ _ _ h1
      | list vs =>
        simp only [GHeap.reads, Option.map_eq_some_iff] at hr
        obtain ⟨v', h1, rfl⟩ := hr
        cases kind <;> first | rfl | exact absurd rfl hk | skip
        simp only
        cases inner with
        | none =>
          have := collect_length h1
          cases vs <;> cases v' <;> simp_all [printArray, printItems]
        | some t => exact printArray_congr h1 (fun x y w hx => ih t x y w hx) w
      | map vs =>
        simp only [GHeap.reads, Option.map_eq_some_iff] at hr
        obtain ⟨v', h1, rfl⟩ := hr
        cases kind <;> first | rfl | exact absurd rfl hk | skip
        simp only
        rw [entries_keys h1]
        congr 1
        funext k w
        obtain ⟨e1, e2⟩ := entries_get k h1
        cases hg : Assoc.get vs k with
        | none => simp only [e2 hg]
        | some y =>
          obtain ⟨z, e3, e4⟩ := e1 y hg
          simp only [e4]
          cases inner with
          | none => rfl
          | some t => exact ih t y z w e3
      | obj vs =>
        simp only [GHeap.reads, Option.map_eq_some_iff] at hr
        obtain ⟨v', h1, rfl⟩ := hr
        cases kind <;> first | rfl | exact absurd rfl hk | skip
        simp only
        congr 1
        · funext a w
          cases Assoc.get ks a with
          | none => rfl
          | some k =>
            simp only
            cases Assoc.get fs k with
            | none => rfl
            | some t =>
              simp only
              obtain ⟨e1, e2⟩ := entries_get k h1
              cases hg : Assoc.get vs k with
              | none => simp only [e2 hg]; rfl
              | some y =>
                obtain ⟨z, e3, e4⟩ := e1 y hg
                simp only [e4]
                exact ih t y z w e3
        · funext a
          split
          · rfl
          cases Assoc.get ks a with
          | none => rfl
          | some k =>
            simp only
            cases Assoc.get fs k with
            | none => rfl
            | some t =>
              simp only
              obtain ⟨e1, e2⟩ := entries_get k h1
              cases hg : Assoc.get vs k with
              | none => simp only [e2 hg]; rfl
              | some y =>
                obtain ⟨z, e3, e4⟩ := e1 y hg
                simp only [e4]
                exact isEmpty_reads g c h n d t y z e3 (by omega)
      | _ =>
        simp only [GHeap.reads, Option.some.injEq] at hr
        subst hr
        cases kind <;> first | rfl | exact absurd rfl hk

end Reflect.Json
