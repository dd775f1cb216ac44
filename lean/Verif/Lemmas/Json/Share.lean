import Verif.Spec.JsonShare
import Verif.Lemmas.Json.Cache
/-
  The machine of `Model/Json/Share.lean`: an invariant that relates every state to the serial run of the calls in
  the order in which they got the mutex.
-/
namespace Reflect.Json.Share

variable {σ κ ρ ι : Type}

/-- entries are kept -/
def Keeps (c c' : Assoc TyId σ) : Prop := ∀ t st, Assoc.get c t = some st → Assoc.get c' t = some st

/-- what the machine needs to know of parsers and printers -/
structure Sound (sh : Shop σ κ ρ ι) (Closed : Assoc TyId σ → Prop) (call : κ → Assoc TyId σ → Res ρ × Assoc TyId σ) : Prop where
  closed : ∀ k c, Closed c → Closed (after c (sh.make k c).2)
  fresh : ∀ k c, ∀ w ∈ (sh.make k c).2, Assoc.get c w.1 = none
  made : ∀ k c, Closed c → (sh.make k c).1 = .ok () → (Assoc.get (after c (sh.make k c).2) (sh.type k)).isSome
  near : ∀ k c look, Closed c → (Assoc.get c (sh.type k)).isSome → (∀ x, Keeps c (look x)) → sh.use k look = sh.use k (fun _ => c)
  call : ∀ k c, Closed c → call k c = (match (sh.make k c).1 with
    | .error e => .error e
    | .ok _ => sh.use k (fun _ => after c (sh.make k c).2), after c (sh.make k c).2)

/-- the cache after the serial run -/
def final (call : κ → Assoc TyId σ → Res ρ × Assoc TyId σ) (l : List (Nat × κ)) (c : Assoc TyId σ) : Assoc TyId σ :=
  l.foldl (fun c p => (call p.2 c).2) c

theorem serial_append (call : κ → Assoc TyId σ → Res ρ × Assoc TyId σ) : ∀ (l l' : List (Nat × κ)) (c : Assoc TyId σ),
    serial call (l ++ l') c = serial call l c ++ serial call l' (final call l c)
  | [], _, _ => rfl
  | (i, k) :: l, l', c => by
    simp only [List.cons_append, serial, serial_append call l l', final, List.foldl_cons]

theorem of_append {α : Type} (i : Nat) (l l' : List (Nat × α)) : of i (l ++ l') = of i l ++ of i l' := by
  simp [of]

theorem of_one {α : Type} (i j : Nat) (x : α) : of i [(j, x)] = if j = i then [x] else [] := by
  by_cases h : j = i
  · simp [of, h]
  · simp [of, h]

/-- what is known of a thread in the phase, `l` being the part of its serial outcomes not yet written down, `F` the
cache at the end of the serial run, `W` the writes to come -/
def Pending (sh : Shop σ κ ρ ι) (Closed : Assoc TyId σ → Prop) (F cache : Assoc TyId σ) (W : Writes σ) :
    Phase σ κ → List (κ × Res ρ) → Prop
  | .idle, l => l = []
  | .making k ws e, l => ws = W ∧ (e = .ok () → (Assoc.get F (sh.type k)).isSome) ∧
      l = [(k, match e with | .error x => .error x | .ok _ => sh.use k (fun _ => F))]
  | .using k seen, l => ∃ c rest, seen = c :: rest ∧ Closed c ∧ (Assoc.get c (sh.type k)).isSome ∧ (∀ c' ∈ seen, Keeps c c') ∧
      Keeps c cache ∧ (∀ w ∈ W, Assoc.get c w.1 = none) ∧ l = [(k, sh.use k (fun _ => c))]

structure Inv (sh : Shop σ κ ρ ι) (Closed : Assoc TyId σ → Prop) (call : κ → Assoc TyId σ → Res ρ × Assoc TyId σ)
    (c0 : Assoc TyId σ) (works : List (List κ)) (s : State σ κ ρ) (W : Writes σ) : Prop where
  closed : Closed (final call s.order c0)
  rest : after s.cache W = final call s.order c0
  free : s.lock = none → W = []
  held : ∀ j, s.lock = some j → ∃ th k e, s.threads[j]? = some th ∧ th.phase = .making k W e
  one : ∀ (j : Nat) th k ws e, s.threads[j]? = some th → th.phase = .making k ws e → s.lock = some j
  each : ∀ (j : Nat) th, s.threads[j]? = some th → ∃ l, of j (serial call s.order c0) = th.out ++ l ∧
    Pending sh Closed (final call s.order c0) s.cache W th.phase l
  prog : ∀ (j : Nat) th, s.threads[j]? = some th → ∃ ks, works[j]? = some ks ∧ of j s.order ++ th.todo = ks
  count : s.threads.length = works.length

variable {sh : Shop σ κ ρ ι} {Closed : Assoc TyId σ → Prop} {call : κ → Assoc TyId σ → Res ρ × Assoc TyId σ}
  {c0 : Assoc TyId σ} {works : List (List κ)}

theorem Inv.start (h0 : Closed c0) : Inv sh Closed call c0 works (start c0 works) [] := by
  have hidle : ∀ (j : Nat) th, (Share.start c0 works : State σ κ ρ).threads[j]? = some th →
      th.phase = .idle ∧ th.out = [] ∧ works[j]? = some th.todo := by
    intro j th h
    simp only [Share.start, List.getElem?_map, Option.map_eq_some_iff] at h
    obtain ⟨ks, h1, rfl⟩ := h
    exact ⟨rfl, rfl, h1⟩
  refine ⟨h0, rfl, fun _ => rfl, ?_, ?_, ?_, ?_, ?_⟩
  · intro j h; cases h
  · intro j th k ws e h hp
    rw [(hidle j th h).1] at hp; cases hp
  · intro j th h
    obtain ⟨a, b, _⟩ := hidle j th h
    refine ⟨[], by rw [b]; rfl, ?_⟩
    rw [a]; rfl
  · intro j th h
    exact ⟨_, (hidle j th h).2.2, rfl⟩
  · simp [Share.start]

theorem getElem?_set_cases {α : Type} {l : List α} {i j : Nat} {x y : α} (h : (l.set i x)[j]? = some y) :
    (j = i ∧ y = x) ∨ (j ≠ i ∧ l[j]? = some y) := by
  rw [List.getElem?_set] at h
  split at h
  · rename_i e
    split at h
    · cases h; exact Or.inl ⟨e.symm, rfl⟩
    · cases h
  · rename_i e
    exact Or.inr ⟨fun h => e h.symm, h⟩

theorem Keeps.trans {a b c : Assoc TyId σ} (h : Keeps a b) (h2 : Keeps b c) : Keeps a c := fun t st x => h2 t st (h t st x)
theorem Keeps.refl (c : Assoc TyId σ) : Keeps c c := fun _ _ h => h

theorem Keeps.set {a b : Assoc TyId σ} (h : Keeps a b) {t : TyId} (st : σ) (hn : Assoc.get a t = none) :
    Keeps a (Assoc.set b t st) := by
  intro t' st' hx
  rw [Assoc.get_set]
  split
  · rename_i e; subst e; rw [hn] at hx; cases hx
  · exact h t' st' hx

theorem Keeps.after {a : Assoc TyId σ} : ∀ {ws : Writes σ} {b : Assoc TyId σ}, Keeps a b → (∀ w ∈ ws, Assoc.get a w.1 = none) →
    Keeps a (after b ws)
  | [], _, h, _ => h
  | w :: ws, b, h, hn => by
    show Keeps a (Share.after (Assoc.set b w.1 w.2) ws)
    exact Keeps.after (h.set w.2 (hn w (by simp))) (fun w' hw => hn w' (by simp [hw]))

theorem inv_step (hs : Sound sh Closed call) {s s' : State σ κ ρ} {W : Writes σ} {i : Nat}
    (h : Inv sh Closed call c0 works s W) (st : Step sh i s s') : ∃ W', Inv sh Closed call c0 works s' W' := by
  cases st with
  | acquire th k ks hth hp ht hl =>
    have hW := h.free hl
    subst hW
    have hrest : s.cache = final call s.order c0 := h.rest
    have hcl : Closed s.cache := by rw [hrest]; exact h.closed
    have hF : final call (s.order ++ [(i, k)]) c0 = after s.cache (sh.make k s.cache).2 := by
      rw [final, List.foldl_append]
      show (call k (final call s.order c0)).2 = _
      rw [← hrest, hs.call k s.cache hcl]
    have hser : ∀ j, of j (serial call (s.order ++ [(i, k)]) c0) = of j (serial call s.order c0) ++
        if i = j then [(k, (call k s.cache).1)] else [] := by
      intro j
      rw [serial_append, of_append, ← hrest]
      simp only [serial]
      rw [of_one]
    refine ⟨(sh.make k s.cache).2, ⟨?_, ?_, ?_, ?_, ?_, ?_, ?_, ?_⟩⟩
    · simp only [State.put]
      rw [hF]
      exact hs.closed k s.cache hcl
    · simp only [State.put]
      rw [hF]
    · intro e; cases e
    · intro j e
      cases e
      refine ⟨{ th with phase := .making k (sh.make k s.cache).2 (sh.make k s.cache).1, todo := ks }, k, (sh.make k s.cache).1, ?_, rfl⟩
      simp only [State.put]
      rw [List.getElem?_set_self (List.getElem?_eq_some_iff.mp hth).1]
    · intro j th' k' ws e hj hph
      rcases getElem?_set_cases hj with ⟨rfl, rfl⟩ | ⟨hne, hj⟩
      · rfl
      · have := h.one j th' k' ws e hj hph
        rw [hl] at this; cases this
    · intro j th' hj
      simp only [State.put] at hj ⊢
      rw [hser, hF]
      rcases getElem?_set_cases hj with ⟨rfl, rfl⟩ | ⟨hne, hj⟩
      · obtain ⟨l, h1, h2⟩ := h.each _ th hth
        rw [hp] at h2
        cases h2
        refine ⟨[(k, (call k s.cache).1)], by rw [h1]; simp, rfl, ?_, ?_⟩
        · intro e
          exact hs.made k s.cache hcl e
        · rw [hs.call k s.cache hcl]
      · obtain ⟨l, h1, h2⟩ := h.each _ th' hj
        rw [if_neg (fun e => hne e.symm), List.append_nil]
        refine ⟨l, h1, ?_⟩
        revert h2
        cases hph : th'.phase with
        | idle => exact id
        | making k' ws e =>
          have := h.one j th' k' ws e hj hph
          rw [hl] at this; cases this
        | «using» k' seen =>
          rintro ⟨c, r, e1, e2, e3, e4, e5, e6, e7⟩
          refine ⟨c, r, e1, e2, e3, e4, e5, ?_, e7⟩
          intro w hw
          cases hx : Assoc.get c w.1 with
          | none => rfl
          | some x =>
            have := hs.fresh k s.cache w hw
            rw [e5 _ _ hx] at this; cases this
    · intro j th' hj
      simp only [State.put] at hj ⊢
      rw [of_append, of_one]
      rcases getElem?_set_cases hj with ⟨rfl, rfl⟩ | ⟨hne, hj⟩
      · obtain ⟨ks', h1, h2⟩ := h.prog _ th hth
        refine ⟨ks', h1, ?_⟩
        rw [← h2, ht]; simp
      · obtain ⟨ks', h1, h2⟩ := h.prog _ th' hj
        refine ⟨ks', h1, ?_⟩
        rw [if_neg (fun e => hne e.symm), List.append_nil, h2]
    · simp [State.put, h.count]
  | write th k w ws e hth hp =>
    have hlock := h.one i th k _ e hth hp
    obtain ⟨th1, k1, e1, a1, a2⟩ := h.held i hlock
    rw [hth] at a1; cases a1
    rw [hp] at a2; cases a2
    have key : ∀ (j : Nat) th', ((s.threads.map (Thread.see (Assoc.set s.cache w.1 w.2))).set i { th with phase := .making k ws e })[j]? = some th' →
        (j = i ∧ th' = { th with phase := .making k ws e }) ∨ (j ≠ i ∧ ∃ th0, s.threads[j]? = some th0 ∧
          th' = Thread.see (Assoc.set s.cache w.1 w.2) th0) := by
      intro j th' hj
      rcases getElem?_set_cases hj with x | ⟨hne, hj⟩
      · exact Or.inl x
      · rw [List.getElem?_map, Option.map_eq_some_iff] at hj
        obtain ⟨th0, b1, b2⟩ := hj
        exact Or.inr ⟨hne, th0, b1, b2.symm⟩
    refine ⟨ws, ⟨h.closed, h.rest, ?_, ?_, ?_, ?_, ?_, ?_⟩⟩
    · intro e; simp only at e; rw [hlock] at e; cases e
    · intro j hj
      simp only at hj ⊢
      rw [hlock] at hj; cases hj
      refine ⟨{ th with phase := .making k ws e }, k, e, ?_, rfl⟩
      rw [List.getElem?_set_self (by rw [List.length_map]; exact (List.getElem?_eq_some_iff.mp hth).1)]
    · intro j th' k' ws' e' hj hph
      simp only at hj ⊢
      rcases key j th' hj with ⟨rfl, rfl⟩ | ⟨hne, th0, b1, rfl⟩
      · exact hlock
      · unfold Thread.see at hph
        cases hq : th0.phase with
        | idle => simp only [hq] at hph; cases hph
        | making k2 ws2 e2 =>
          exact h.one j th0 k2 ws2 e2 b1 hq
        | «using» k2 seen => simp only [hq] at hph; cases hph
    · intro j th' hj
      simp only at hj ⊢
      rcases key j th' hj with ⟨rfl, rfl⟩ | ⟨hne, th0, b1, rfl⟩
      · obtain ⟨l, h1, h2⟩ := h.each _ th hth
        rw [hp] at h2
        exact ⟨l, h1, rfl, h2.2⟩
      · obtain ⟨l, h1, h2⟩ := h.each _ th0 b1
        refine ⟨l, ?_, ?_⟩
        · rw [h1]; unfold Thread.see; split <;> rfl
        · unfold Thread.see
          cases hq : th0.phase with
          | idle => simp only [hq] at h2 ⊢; exact h2
          | making k2 ws2 e2 =>
            have := h.one j th0 k2 ws2 e2 b1 hq
            rw [hlock] at this; cases this; exact absurd rfl hne
          | «using» k2 seen =>
            rw [hq] at h2
            obtain ⟨c, r, rfl, f2, f3, f4, f5, f6, f7⟩ := h2
            have hk : Keeps c (Assoc.set s.cache w.1 w.2) := f5.set w.2 (f6 w (by simp))
            refine ⟨c, r ++ [Assoc.set s.cache w.1 w.2], rfl, f2, f3, ?_, hk, fun w' hw' => f6 w' (by simp [hw']), f7⟩
            intro c' hc'
            rcases List.mem_append.1 hc' with x | x
            · exact f4 c' x
            · simp only [List.mem_singleton] at x; subst x; exact hk
    · intro j th' hj
      simp only at hj ⊢
      rcases key j th' hj with ⟨rfl, rfl⟩ | ⟨hne, th0, b1, rfl⟩
      · exact h.prog _ th hth
      · obtain ⟨ks', h1, h2⟩ := h.prog _ th0 b1
        refine ⟨ks', h1, ?_⟩
        rw [← h2]; unfold Thread.see; split <;> rfl
    · simp [h.count]
  | raise th k e hth hp =>
    have hlock := h.one i th k _ _ hth hp
    obtain ⟨th1, k1, e1, a1, a2⟩ := h.held i hlock
    rw [hth] at a1; cases a1
    rw [hp] at a2; cases a2
    refine ⟨[], ⟨h.closed, h.rest, fun _ => rfl, ?_, ?_, ?_, ?_, ?_⟩⟩
    · intro j hj; cases hj
    · intro j th' k' ws' e' hj hph
      rcases getElem?_set_cases hj with ⟨rfl, rfl⟩ | ⟨hne, hj⟩
      · cases hph
      · have := h.one j th' k' ws' e' hj hph
        rw [hlock] at this; cases this; exact absurd rfl hne
    · intro j th' hj
      simp only [State.put] at hj ⊢
      rcases getElem?_set_cases hj with ⟨rfl, rfl⟩ | ⟨hne, hj⟩
      · obtain ⟨l, h1, h2⟩ := h.each _ th hth
        rw [hp] at h2
        obtain ⟨_, _, rfl⟩ := h2
        exact ⟨[], by rw [h1]; simp, rfl⟩
      · exact h.each _ th' hj
    · intro j th' hj
      simp only [State.put] at hj ⊢
      rcases getElem?_set_cases hj with ⟨rfl, rfl⟩ | ⟨hne, hj⟩
      · exact h.prog _ th hth
      · exact h.prog _ th' hj
    · simp [State.put, h.count]
  | release th k hth hp =>
    have hlock := h.one i th k _ _ hth hp
    obtain ⟨th1, k1, e1, a1, a2⟩ := h.held i hlock
    rw [hth] at a1; cases a1
    rw [hp] at a2; cases a2
    have hrest : s.cache = final call s.order c0 := h.rest
    refine ⟨[], ⟨h.closed, h.rest, fun _ => rfl, ?_, ?_, ?_, ?_, ?_⟩⟩
    · intro j hj; cases hj
    · intro j th' k' ws' e' hj hph
      rcases getElem?_set_cases hj with ⟨rfl, rfl⟩ | ⟨hne, hj⟩
      · cases hph
      · have := h.one j th' k' ws' e' hj hph
        rw [hlock] at this; cases this; exact absurd rfl hne
    · intro j th' hj
      simp only [State.put] at hj ⊢
      rcases getElem?_set_cases hj with ⟨rfl, rfl⟩ | ⟨hne, hj⟩
      · obtain ⟨l, h1, h2⟩ := h.each _ th hth
        rw [hp] at h2
        obtain ⟨_, h3, rfl⟩ := h2
        refine ⟨_, h1, s.cache, [], rfl, by rw [hrest]; exact h.closed, by rw [hrest]; exact h3 rfl, ?_, Keeps.refl _, ?_, ?_⟩
        · intro c' hc'
          simp only [List.mem_singleton] at hc'
          subst hc'; exact Keeps.refl _
        · intro w hw; cases hw
        · rw [hrest]
      · exact h.each _ th' hj
    · intro j th' hj
      simp only [State.put] at hj ⊢
      rcases getElem?_set_cases hj with ⟨rfl, rfl⟩ | ⟨hne, hj⟩
      · exact h.prog _ th hth
      · exact h.prog _ th' hj
    · simp [State.put, h.count]
  | finish th k seen look hth hp hlook =>
    refine ⟨W, ⟨h.closed, h.rest, h.free, ?_, ?_, ?_, ?_, ?_⟩⟩
    · intro j hj
      simp only [State.put] at hj ⊢
      obtain ⟨th1, k1, e1, a1, a2⟩ := h.held j hj
      have hne : i ≠ j := by
        rintro rfl
        rw [hth] at a1; cases a1
        rw [hp] at a2; cases a2
      exact ⟨th1, k1, e1, by rw [List.getElem?_set_ne hne]; exact a1, a2⟩
    · intro j th' k' ws' e' hj hph
      rcases getElem?_set_cases hj with ⟨rfl, rfl⟩ | ⟨hne, hj⟩
      · cases hph
      · exact h.one j th' k' ws' e' hj hph
    · intro j th' hj
      simp only [State.put] at hj ⊢
      rcases getElem?_set_cases hj with ⟨rfl, rfl⟩ | ⟨hne, hj⟩
      · obtain ⟨l, h1, h2⟩ := h.each _ th hth
        rw [hp] at h2
        obtain ⟨c, r, rfl, f2, f3, f4, f5, f6, rfl⟩ := h2
        refine ⟨[], ?_, rfl⟩
        rw [h1, hs.near k c look f2 f3 (fun x => f4 _ (hlook x))]
        simp
      · exact h.each _ th' hj
    · intro j th' hj
      simp only [State.put] at hj ⊢
      rcases getElem?_set_cases hj with ⟨rfl, rfl⟩ | ⟨hne, hj⟩
      · exact h.prog _ th hth
      · exact h.prog _ th' hj
    · simp [State.put, h.count]

theorem inv_run (hs : Sound sh Closed call) (h0 : Closed c0) {s : State σ κ ρ} (h : Run sh (start c0 works) s) :
    ∃ W, Inv sh Closed call c0 works s W := by
  induction h with
  | refl => exact ⟨[], Inv.start h0⟩
  | step i _ st ih =>
    obtain ⟨W, ih⟩ := ih
    exact inv_step hs ih st

end Reflect.Json.Share
