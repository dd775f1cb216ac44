import Verif.Lemmas.Json.ShareW
import Verif.Lemmas.Json.SameCache
import Verif.Props.JsonUnfit
/-
  C84 `json::parse` and `json::print` may be called by several threads at once.
-/
namespace Reflect.Json.Share

variable {σ κ ρ ι : Type}

theorem inv_serial {sh : Shop σ κ ρ ι} {Closed : Assoc TyId σ → Prop} {call : κ → Assoc TyId σ → Res ρ × Assoc TyId σ}
    (hs : Sound sh Closed call) (h0 : Closed []) {works : List (List κ)} {s : State σ κ ρ} (h : Run sh (start [] works) s)
    (i : Nat) (th : Thread σ κ ρ) (hi : s.threads[i]? = some th) :
    th.out <+: of i (serial call s.order []) ∧ works[i]? = some (of i s.order ++ th.todo) ∧
      (th.phase = .idle → th.out = of i (serial call s.order [])) := by
  obtain ⟨W, inv⟩ := inv_run hs h0 h
  obtain ⟨l, h1, h2⟩ := inv.each i th hi
  obtain ⟨ks, h3, h4⟩ := inv.prog i th hi
  refine ⟨⟨l, h1.symm⟩, by rw [h3, h4], fun e => ?_⟩
  rw [e] at h2
  cases h2
  rw [h1, List.append_nil]

/-- Whatever the schedule, the outcomes are those of the same calls made one after the other, in the order in which
they got the mutex; each thread's calls are made in its own order. -/
theorem C84_parse_serial (env : Env) (n : Nat) (works : List (List (TyId × JV × Reader)))
    (s : State PState (TyId × JV × Reader) (JV × Reader)) (h : Run (parsers env n) (start [] works) s)
    (i : Nat) (th : Thread PState (TyId × JV × Reader) (JV × Reader)) (hi : s.threads[i]? = some th) :
    th.out <+: of i (serial (parse1 env n) s.order []) ∧ works[i]? = some (of i s.order ++ th.todo) ∧
      (th.phase = .idle → th.out = of i (serial (parse1 env n) s.order [])) :=
  inv_serial (parsers_sound env n) (by intro ty st t h; cases h) h i th hi

/-- The same of printing. -/
theorem C84_print_serial (env : Env) (n : Nat) (works : List (List (TyId × JV × Writer)))
    (s : State WState (TyId × JV × Writer) Writer) (h : Run (printers env n) (start [] works) s)
    (i : Nat) (th : Thread WState (TyId × JV × Writer) Writer) (hi : s.threads[i]? = some th) :
    th.out <+: of i (serial (print1 env n) s.order []) ∧ works[i]? = some (of i s.order ++ th.todo) ∧
      (th.phase = .idle → th.out = of i (serial (print1 env n) s.order [])) :=
  inv_serial (printers_sound env n) (by intro ty st t h; cases h) h i th hi

theorem inv_apart {sh : Shop σ κ ρ ι} {Closed : Assoc TyId σ → Prop} {call : κ → Assoc TyId σ → Res ρ × Assoc TyId σ}
    (hs : Sound sh Closed call) (h0 : Closed []) {works : List (List κ)} {s : State σ κ ρ} (h : Run sh (start [] works) s)
    (i j : Nat) (a b : Thread σ κ ρ) (hi : s.threads[i]? = some a) (hj : s.threads[j]? = some b) (k k' : κ)
    (seen : List (Assoc TyId σ)) (ws : Writes σ) (e : Res Unit) (ha : a.phase = .using k seen) (hb : b.phase = .making k' ws e) :
    ∃ c, seen.head? = some c ∧ Closed c ∧ (Assoc.get c (sh.type k)).isSome ∧ Keeps c s.cache ∧ ∀ w ∈ ws, Assoc.get c w.1 = none := by
  obtain ⟨W, inv⟩ := inv_run hs h0 h
  obtain ⟨l, _, h2⟩ := inv.each i a hi
  obtain ⟨l', _, h3⟩ := inv.each j b hj
  rw [ha] at h2
  rw [hb] at h3
  obtain ⟨c, r, rfl, f2, f3, f4, f5, f6, f7⟩ := h2
  obtain ⟨rfl, _⟩ := h3
  exact ⟨c, rfl, f2, f3, f5, f6⟩

theorem usesP_in {c : PCache} (hc : ClosedP c) {ty t : TyId} (h : UsesP c ty t) : (Assoc.get c ty).isSome → (Assoc.get c t).isSome := by
  induction h with
  | refl => exact id
  | inner ty t u st h1 h2 _ ih => exact fun _ => ih (hc ty st t h1 (Or.inl h2))
  | field ty t u st k h1 h2 _ ih => exact fun _ => ih (hc ty st t h1 (Or.inr ⟨k, h2⟩))

theorem usesW_in {c : WCache} (hc : ClosedW c) {ty t : TyId} (h : UsesW c ty t) : (Assoc.get c ty).isSome → (Assoc.get c t).isSome := by
  induction h with
  | refl => exact id
  | inner ty t u st h1 h2 _ ih => exact fun _ => ih (hc ty st t h1 (Or.inl h2))
  | field ty t u st k h1 h2 _ ih => exact fun _ => ih (hc ty st t h1 (Or.inr ⟨k, h2⟩))

/-- No data race: while one thread uses a parser, whatever another thread is about to write in `getParser` is none of
the parser objects that the first may read, and these are as they were when it got its parser. -/
theorem C84_parse_no_race (env : Env) (n : Nat) (works : List (List (TyId × JV × Reader)))
    (s : State PState (TyId × JV × Reader) (JV × Reader)) (h : Run (parsers env n) (start [] works) s)
    (i j : Nat) (a b : Thread PState (TyId × JV × Reader) (JV × Reader)) (hi : s.threads[i]? = some a) (hj : s.threads[j]? = some b)
    (k k' : TyId × JV × Reader) (seen : List PCache) (ws : Writes PState) (e : Res Unit)
    (ha : a.phase = .using k seen) (hb : b.phase = .making k' ws e) :
    ∃ c, seen.head? = some c ∧ ∀ t, UsesP c k.1 t → (∀ w ∈ ws, w.1 ≠ t) ∧ ∃ st, Assoc.get c t = some st ∧ Assoc.get s.cache t = some st := by
  obtain ⟨c, h1, h2, h3, h4, h5⟩ := inv_apart (parsers_sound env n) (by intro ty st t h; cases h) h i j a b hi hj k k' seen ws e ha hb
  refine ⟨c, h1, fun t ht => ?_⟩
  have ht' := usesP_in h2 ht h3
  obtain ⟨st, hst⟩ := Option.isSome_iff_exists.mp ht'
  refine ⟨?_, st, hst, h4 t st hst⟩
  rintro w hw rfl
  rw [h5 w hw] at hst; cases hst

/-- The same of printing. -/
theorem C84_print_no_race (env : Env) (n : Nat) (works : List (List (TyId × JV × Writer)))
    (s : State WState (TyId × JV × Writer) Writer) (h : Run (printers env n) (start [] works) s)
    (i j : Nat) (a b : Thread WState (TyId × JV × Writer) Writer) (hi : s.threads[i]? = some a) (hj : s.threads[j]? = some b)
    (k k' : TyId × JV × Writer) (seen : List WCache) (ws : Writes WState) (e : Res Unit)
    (ha : a.phase = .using k seen) (hb : b.phase = .making k' ws e) :
    ∃ c, seen.head? = some c ∧ ∀ t, UsesW c k.1 t → (∀ w ∈ ws, w.1 ≠ t) ∧ ∃ st, Assoc.get c t = some st ∧ Assoc.get s.cache t = some st := by
  obtain ⟨c, h1, h2, h3, h4, h5⟩ := inv_apart (printers_sound env n) (by intro ty st t h; cases h) h i j a b hi hj k k' seen ws e ha hb
  refine ⟨c, h1, fun t ht => ?_⟩
  have ht' := usesW_in h2 ht h3
  obtain ⟨st, hst⟩ := Option.isSome_iff_exists.mp ht'
  refine ⟨?_, st, hst, h4 t st hst⟩
  rintro w hw rfl
  rw [h5 w hw] at hst; cases hst

theorem inv_exclusive {sh : Shop σ κ ρ ι} {Closed : Assoc TyId σ → Prop} {call : κ → Assoc TyId σ → Res ρ × Assoc TyId σ}
    (hs : Sound sh Closed call) (h0 : Closed []) {works : List (List κ)} {s : State σ κ ρ} (h : Run sh (start [] works) s)
    (i j : Nat) (a b : Thread σ κ ρ) (hi : s.threads[i]? = some a) (hj : s.threads[j]? = some b) (k k' : κ) (ws ws' : Writes σ) (e e' : Res Unit)
    (ha : a.phase = .making k ws e) (hb : b.phase = .making k' ws' e') : i = j := by
  obtain ⟨W, inv⟩ := inv_run hs h0 h
  have h1 := inv.one i a k ws e hi ha
  rw [inv.one j b k' ws' e' hj hb] at h1
  exact (Option.some.inj h1).symm

/-- Nor do two threads make parsers at the same time. -/
theorem C84_parse_exclusive (env : Env) (n : Nat) (works : List (List (TyId × JV × Reader)))
    (s : State PState (TyId × JV × Reader) (JV × Reader)) (h : Run (parsers env n) (start [] works) s)
    (i j : Nat) (a b : Thread PState (TyId × JV × Reader) (JV × Reader)) (hi : s.threads[i]? = some a) (hj : s.threads[j]? = some b)
    (k k' : TyId × JV × Reader) (ws ws' : Writes PState) (e e' : Res Unit)
    (ha : a.phase = .making k ws e) (hb : b.phase = .making k' ws' e') : i = j :=
  inv_exclusive (parsers_sound env n) (by intro ty st t h; cases h) h i j a b hi hj k k' ws ws' e e' ha hb

/-- Nor printers. -/
theorem C84_print_exclusive (env : Env) (n : Nat) (works : List (List (TyId × JV × Writer)))
    (s : State WState (TyId × JV × Writer) Writer) (h : Run (printers env n) (start [] works) s)
    (i j : Nat) (a b : Thread WState (TyId × JV × Writer) Writer) (hi : s.threads[i]? = some a) (hj : s.threads[j]? = some b)
    (k k' : TyId × JV × Writer) (ws ws' : Writes WState) (e e' : Res Unit)
    (ha : a.phase = .making k ws e) (hb : b.phase = .making k' ws' e') : i = j :=
  inv_exclusive (printers_sound env n) (by intro ty st t h; cases h) h i j a b hi hj k k' ws ws' e e' ha hb

/-! ### no thread waits for ever -/

theorem inv_progress {sh : Shop σ κ ρ ι} {Closed : Assoc TyId σ → Prop} {call : κ → Assoc TyId σ → Res ρ × Assoc TyId σ}
    (hs : Sound sh Closed call) (h0 : Closed []) {works : List (List κ)} {s : State σ κ ρ} (h : Run sh (start [] works) s)
    (ho : ¬ s.over) : ∃ i s', Step sh i s s' := by
  obtain ⟨W, inv⟩ := inv_run hs h0 h
  cases hl : s.lock with
  | some j =>
    obtain ⟨th, k, e, h1, h2⟩ := inv.held j hl
    cases W with
    | cons w ws => exact ⟨j, _, .write th k w ws e h1 h2⟩
    | nil =>
      cases e with
      | error e => exact ⟨j, _, .raise th k e h1 h2⟩
      | ok u => exact ⟨j, _, .release th k h1 h2⟩
  | none =>
    have : ∃ th ∈ s.threads, ¬ (th.todo = [] ∧ th.phase = .idle) := by
      refine Classical.byContradiction fun hh => ho fun th hth => ?_
      exact Classical.byContradiction fun hh' => hh ⟨th, hth, hh'⟩
    obtain ⟨th, hm, hn⟩ := this
    obtain ⟨j, hj⟩ := List.mem_iff_getElem?.mp hm
    cases hp : th.phase with
    | idle =>
      cases ht : th.todo with
      | nil => exact absurd ⟨ht, hp⟩ hn
      | cons k ks => exact ⟨j, _, .acquire th k ks hj hp ht hl⟩
    | making k ws e =>
      have := inv.one j th k ws e hj hp
      rw [hl] at this; cases this
    | «using» k seen =>
      obtain ⟨l, _, h2⟩ := inv.each j th hj
      rw [hp] at h2
      obtain ⟨c, r, rfl, _⟩ := h2
      exact ⟨j, _, .finish th k _ (fun _ => c) hj hp (fun _ => by simp)⟩

/-- No deadlock: as long as there is something to do, some thread can take a step. -/
theorem C84_parse_progress (env : Env) (n : Nat) (works : List (List (TyId × JV × Reader)))
    (s : State PState (TyId × JV × Reader) (JV × Reader)) (h : Run (parsers env n) (start [] works) s) (ho : ¬ s.over) :
    ∃ i s', Step (parsers env n) i s s' :=
  inv_progress (parsers_sound env n) (by intro ty st t h; cases h) h ho

/-- The same of printing. -/
theorem C84_print_progress (env : Env) (n : Nat) (works : List (List (TyId × JV × Writer)))
    (s : State WState (TyId × JV × Writer) Writer) (h : Run (printers env n) (start [] works) s) (ho : ¬ s.over) :
    ∃ i s', Step (printers env n) i s s' :=
  inv_progress (printers_sound env n) (by intro ty st t h; cases h) h ho

def Phase.weight : Phase σ κ → Nat
  | .idle => 0
  | .making _ ws _ => ws.length + 2
  | .using _ _ => 1

def calls (l : List (Thread σ κ ρ)) : Nat := (l.map fun th => th.todo.length).sum
def weight (l : List (Thread σ κ ρ)) : Nat := (l.map fun th => th.phase.weight).sum

theorem sum_set {α : Type} (f : α → Nat) : ∀ (l : List α) (i : Nat) (x y : α), l[i]? = some x →
    ((l.set i y).map f).sum + f x = (l.map f).sum + f y
  | [], i, x, y, h => by simp at h
  | a :: l, 0, x, y, h => by
    simp only [List.getElem?_cons_zero, Option.some.injEq] at h
    subst h
    simp only [List.set_cons_zero, List.map_cons, List.sum_cons]
    omega
  | a :: l, i + 1, x, y, h => by
    simp only [List.getElem?_cons_succ] at h
    have := sum_set f l i x y h
    simp only [List.set_cons_succ, List.map_cons, List.sum_cons]
    omega

theorem sum_see (c : Assoc TyId σ) (l : List (Thread σ κ ρ)) : calls (l.map (Thread.see c)) = calls l ∧ weight (l.map (Thread.see c)) = weight l := by
  have h1 : ∀ th : Thread σ κ ρ, (th.see c).todo = th.todo := by
    intro th; unfold Thread.see; split <;> rfl
  have h2 : ∀ th : Thread σ κ ρ, (th.see c).phase.weight = th.phase.weight := by
    intro th; unfold Thread.see; split
    · rename_i h; rw [h]; rfl
    · rfl
  unfold calls weight
  simp only [List.map_map, Function.comp_def, h1, h2, and_self]

theorem put_less {l : List (Thread σ κ ρ)} {i : Nat} {th th' : Thread σ κ ρ} (h : l[i]? = some th) (ht : th'.todo = th.todo)
    (hw : th'.phase.weight < th.phase.weight) :
    Prod.Lex (· < ·) (· < ·) (calls (l.set i th'), weight (l.set i th')) (calls l, weight l) := by
  have h1 := sum_set (fun th : Thread σ κ ρ => th.todo.length) l i th th' h
  have h2 := sum_set (fun th : Thread σ κ ρ => th.phase.weight) l i th th' h
  change calls (l.set i th') + th.todo.length = calls l + th'.todo.length at h1
  change weight (l.set i th') + th.phase.weight = weight l + th'.phase.weight at h2
  rw [ht] at h1
  have e : calls (l.set i th') = calls l := by omega
  rw [e]
  apply Prod.Lex.right
  omega

/-- a step lowers the calls to make or, these being the same, the weight -/
theorem step_less {sh : Shop σ κ ρ ι} {i : Nat} {s s' : State σ κ ρ} (st : Step sh i s s') :
    Prod.Lex (· < ·) (· < ·) (calls s'.threads, weight s'.threads) (calls s.threads, weight s.threads) := by
  cases st with
  | acquire th k ks h hp ht hl =>
    apply Prod.Lex.left
    have := sum_set (fun th : Thread σ κ ρ => th.todo.length) s.threads i th
      { th with phase := .making k (sh.make k s.cache).2 (sh.make k s.cache).1, todo := ks } h
    simp only [ht, List.length_cons] at this
    simp only [calls, State.put]
    omega
  | write th k w ws e h hp =>
    have hg : (s.threads.map (Thread.see (Assoc.set s.cache w.1 w.2)))[i]? = some th := by
      rw [List.getElem?_map, h]
      simp [Thread.see, hp]
    obtain ⟨e1, e2⟩ := sum_see (Assoc.set s.cache w.1 w.2) s.threads
    have := put_less (th' := { th with phase := .making k ws e }) hg rfl
      (by rw [hp]; show ws.length + 2 < (w :: ws).length + 2; simp)
    rw [e1, e2] at this
    exact this
  | raise th k e h hp =>
    exact put_less (th' := { th with phase := .idle, out := th.out ++ [(k, .error e)] }) h rfl
      (by rw [hp]; show 0 < _ + 2; omega)
  | release th k h hp =>
    exact put_less (th' := { th with phase := .using k [s.cache] }) h rfl
      (by rw [hp]; show 1 < 0 + 2; omega)
  | finish th k seen look h hp hlook =>
    exact put_less (th' := { th with phase := .idle, out := th.out ++ [(k, sh.use k look)] }) h rfl
      (by rw [hp]; show 0 < 1; omega)

/-- Every schedule ends. -/
theorem C84_ends (sh : Shop σ κ ρ ι) : WellFounded fun s' s : State σ κ ρ => ∃ i, Step sh i s s' := by
  refine Subrelation.wf (r := InvImage (Prod.Lex (· < ·) (· < ·)) fun s : State σ κ ρ => (calls s.threads, weight s.threads)) ?_
    (InvImage.wf _ (WellFounded.prod_lex Nat.lt_wfRel.wf Nat.lt_wfRel.wf))
  rintro s' s ⟨i, st⟩
  exact step_less st

/-! ### the schedule does not matter at all, if the types are good -/

/-- no part of the type is to be refused by the parser -/
def Parsable (env : Env) (ty : TyId) : Prop := ∀ t, Reaches env TyD.customParser ty t → env.types[t]? ≠ none ∧ ¬ Unparsable env t

/-- no part of the type is to be refused by the printer -/
def Printable (env : Env) (ty : TyId) : Prop := ∀ t, Reaches env TyD.customPrinter ty t → env.types[t]? ≠ none ∧ ¬ Unprintable env t

theorem parse_good {env : Env} (hn : env.Named) {n : Nat} (hl : env.types.length < n) {c : PCache} (hc : Good env c) (k : TyId × JV × Reader)
    (hk : Parsable env k.1) : (parse1 env n k c).1 = (parse1 env n k []).1 ∧ Good env (parse1 env n k c).2 := by
  have key : ∀ c, Good env c → ∃ c', parse1 env n k c = (parseV env c' n k.1 k.2.1 k.2.2, c') ∧ Good env c' ∧ (Assoc.get c' k.1).isSome := by
    intro c hc
    cases hp : getParser env n k.1 c with
    | mk x c' =>
      cases x with
      | error e =>
        exfalso
        rcases getParser_blame n k.1 c c' e hp with g | ⟨t, g1, ⟨_, g2⟩ | ⟨_, g2⟩⟩
        · subst g
          exact getParser_ends (env := env) n k.1 c (by have := missing_le (env := env) c; omega) (by rw [hp])
        · exact (hk t g1).2 g2
        · exact (hk t g1).1 g2
      | ok u =>
        obtain ⟨g1, g2⟩ := getParser_Good hn hp hc
        refine ⟨c', ?_, g1, g2⟩
        unfold parse1 parse
        rw [hp]
  obtain ⟨c1, a1, a2, a3⟩ := key c hc
  obtain ⟨c2, b1, b2, b3⟩ := key [] good_nil
  rw [a1, b1]
  exact ⟨parseV_same a2 b2 n _ _ _ a3 b3, a2⟩

theorem print_good {env : Env} (hn : env.Named) {n : Nat} (hl : env.types.length < n) {c : WCache} (hc : GoodW env c) (k : TyId × JV × Writer)
    (hk : Printable env k.1) : (print1 env n k c).1 = (print1 env n k []).1 ∧ GoodW env (print1 env n k c).2 := by
  have key : ∀ c, GoodW env c → ∃ c', print1 env n k c = (printV env c' n k.1 k.2.1 k.2.2, c') ∧ GoodW env c' ∧ (Assoc.get c' k.1).isSome := by
    intro c hc
    cases hp : getPrinter env n k.1 c with
    | mk x c' =>
      cases x with
      | error e =>
        exfalso
        rcases getPrinter_blame hn n k.1 c c' e hp with g | ⟨t, g1, ⟨_, g2⟩ | ⟨_, g2⟩⟩
        · subst g
          exact getPrinter_ends (env := env) n k.1 c (by have := missingW_le (env := env) c; omega) (by rw [hp])
        · exact (hk t g1).2 g2
        · exact (hk t g1).1 g2
      | ok u =>
        obtain ⟨g1, g2⟩ := getPrinter_Good hn hp hc
        refine ⟨c', ?_, g1, g2⟩
        unfold print1 print
        rw [hp]
  obtain ⟨c1, a1, a2, a3⟩ := key c hc
  obtain ⟨c2, b1, b2, b3⟩ := key [] goodW_nil
  rw [a1, b1]
  exact ⟨printV_same a2 b2 n _ _ _ a3 b3, a2⟩

theorem serial_good {call : κ → Assoc TyId σ → Res ρ × Assoc TyId σ} {G : Assoc TyId σ → Prop} {P : κ → Prop}
    (h : ∀ k c, P k → G c → (call k c).1 = (call k []).1 ∧ G (call k c).2) : ∀ (l : List (Nat × κ)) (c : Assoc TyId σ), G c →
    (∀ p ∈ l, P p.2) → ∀ q ∈ serial call l c, q.2.2 = (call q.2.1 []).1
  | [], _, _, _, q, hq => by cases hq
  | (i, k) :: l, c, hc, hl, q, hq => by
    obtain ⟨h1, h2⟩ := h k c (hl (i, k) (by simp)) hc
    rcases List.mem_cons.1 hq with rfl | hq
    · exact h1
    · exact serial_good h l _ h2 (fun p hp => hl p (by simp [hp])) q hq

theorem order_in {sh : Shop σ κ ρ ι} {Closed : Assoc TyId σ → Prop} {call : κ → Assoc TyId σ → Res ρ × Assoc TyId σ}
    (hs : Sound sh Closed call) (h0 : Closed []) {works : List (List κ)} {s : State σ κ ρ} (h : Run sh (start [] works) s) :
    ∀ p ∈ s.order, ∃ ks ∈ works, p.2 ∈ ks := by
  -- every entry of the order belongs to a thread
  have hb : ∀ p ∈ s.order, p.1 < s.threads.length := by
    induction h with
    | refl => intro p hp; cases hp
    | step i hr st ih =>
      have hlen := (inv_run hs h0 hr)
      cases st with
      | acquire th k ks h hp ht hl =>
        intro p hp'
        simp only [State.put, List.length_set] at hp' ⊢
        rcases List.mem_append.1 hp' with g | g
        · exact ih p g
        · simp only [List.mem_singleton] at g; subst g
          exact (List.getElem?_eq_some_iff.mp h).1
      | write th k w ws e h hp => intro p hp'; simpa using ih p hp'
      | raise th k e h hp => intro p hp'; simpa [State.put] using ih p hp'
      | release th k h hp => intro p hp'; simpa [State.put] using ih p hp'
      | finish th k seen look h hp hlook => intro p hp'; simpa [State.put] using ih p hp'
  obtain ⟨W, inv⟩ := inv_run hs h0 h
  intro p hp
  obtain ⟨th, hth⟩ : ∃ th, s.threads[p.1]? = some th := ⟨_, List.getElem?_eq_getElem (hb p hp)⟩
  obtain ⟨ks, h1, h2⟩ := inv.prog p.1 th hth
  refine ⟨ks, List.mem_iff_getElem?.mpr ⟨_, h1⟩, ?_⟩
  rw [← h2]
  refine List.mem_append.2 (Or.inl ?_)
  unfold of
  exact List.mem_map.2 ⟨p, List.mem_filter.2 ⟨hp, by simp⟩, rfl⟩

theorem of_mem {α : Type} {i : Nat} {l : List (Nat × α)} {x : α} (h : x ∈ of i l) : (i, x) ∈ l := by
  unfold of at h
  obtain ⟨p, h1, rfl⟩ := List.mem_map.1 h
  obtain ⟨h2, h3⟩ := List.mem_filter.1 h1
  simp only [beq_iff_eq] at h3
  subst h3
  exact h2

/-- If none of the types is to be refused, each call's outcome is what the call would give in a program that makes no
other: neither the schedule nor the other calls matter. -/
theorem C84_parse_alone (env : Env) (hn : env.Named) (n : Nat) (hl : env.types.length < n) (works : List (List (TyId × JV × Reader)))
    (hw : ∀ ks ∈ works, ∀ k ∈ ks, Parsable env k.1)
    (s : State PState (TyId × JV × Reader) (JV × Reader)) (h : Run (parsers env n) (start [] works) s)
    (th : Thread PState (TyId × JV × Reader) (JV × Reader)) (hth : th ∈ s.threads) (k : TyId × JV × Reader) (o : Res (JV × Reader))
    (hk : (k, o) ∈ th.out) : o = (parse env n [] k.1 k.2.1 k.2.2).1 := by
  obtain ⟨i, hi⟩ := List.mem_iff_getElem?.mp hth
  have h1 := of_mem ((C84_parse_serial env n works s h i th hi).1.subset hk)
  exact serial_good (call := parse1 env n) (G := Good env) (P := fun k => Parsable env k.1)
    (fun k c hp hc => parse_good hn hl hc k hp) s.order [] good_nil (fun p hp => by
      obtain ⟨ks, g1, g2⟩ := order_in (parsers_sound env n) (by intro ty st t h; cases h) h p hp
      exact hw ks g1 _ g2) _ h1

/-- The same of printing. -/
theorem C84_print_alone (env : Env) (hn : env.Named) (n : Nat) (hl : env.types.length < n) (works : List (List (TyId × JV × Writer)))
    (hw : ∀ ks ∈ works, ∀ k ∈ ks, Printable env k.1)
    (s : State WState (TyId × JV × Writer) Writer) (h : Run (printers env n) (start [] works) s)
    (th : Thread WState (TyId × JV × Writer) Writer) (hth : th ∈ s.threads) (k : TyId × JV × Writer) (o : Res Writer)
    (hk : (k, o) ∈ th.out) : o = (print env n [] k.1 k.2.1 k.2.2).1 := by
  obtain ⟨i, hi⟩ := List.mem_iff_getElem?.mp hth
  have h1 := of_mem ((C84_print_serial env n works s h i th hi).1.subset hk)
  exact serial_good (call := print1 env n) (G := GoodW env) (P := fun k => Printable env k.1)
    (fun k c hp hc => print_good hn hl hc k hp) s.order [] goodW_nil (fun p hp => by
      obtain ⟨ks, g1, g2⟩ := order_in (printers_sound env n) (by intro ty st t h; cases h) h p hp
      exact hw ks g1 _ g2) _ h1

/-! ### a case -/

/-- one thread uses the parser of `int` while another, for a list of strings, has yet to make two parser objects -/
example (r : Reader) (v v' : JV) : ∃ s a b ws, Run (parsers Ex.env 20) (start [] [[(0, v, r)], [(2, v', r)]]) s ∧
    s.threads[0]? = some a ∧ s.threads[1]? = some b ∧ a.phase = .using (0, v, r) [[(0, { kind := .int })], [(2, { kind := .list }), (0, { kind := .int })]] ∧
    b.phase = .making (2, v', r) ws (.ok ()) ∧ ws.map (·.1) = [1, 2] := by
  have m0 : getParserW Ex.env 20 0 [] = (.ok (), [(0, { kind := .int })]) := by
    simp [getParserW, Assoc.get, Ex.env, Ex.tInt, TyD.parserKind]
  have m2 : getParserW Ex.env 20 2 [(0, { kind := .int })] =
      (.ok (), [(2, { kind := .list }), (1, { kind := .string }), (2, { kind := .list, inner := some 1 })]) := by
    simp [getParserW, initInnerP, Assoc.get, Assoc.set, Assoc.erase, Ex.env, Ex.tList, Ex.tStr, TyD.parserKind]
  have r0 : Run (parsers Ex.env 20) (start [] [[(0, v, r)], [(2, v', r)]]) (start [] [[(0, v, r)], [(2, v', r)]]) := .refl
  have r1 := Run.step 0 r0 (.acquire _ (0, v, r) [] rfl rfl rfl rfl)
  simp only [parsers, start, State.put, m0] at r1
  have r2 := Run.step 0 r1 (.write _ _ _ _ _ rfl rfl)
  have r3 := Run.step 0 r2 (.release _ _ rfl rfl)
  have r4 := Run.step 1 r3 (.acquire _ (2, v', r) [] rfl rfl rfl rfl)
  have e0 : Assoc.set ([] : PCache) 0 { kind := .int } = [(0, { kind := .int })] := rfl
  simp only [State.put, e0, m2] at r4
  have r5 := Run.step 1 r4 (.write _ _ _ _ _ rfl rfl)
  exact ⟨_, _, _, _, r5, rfl, rfl, rfl, rfl, rfl⟩

/-- a list of strings is good to read and to write -/
example : Parsable Ex.env 2 ∧ Printable Ex.env 2 := by
  have key : ∀ (fn : TyD → Bytes) (a t : TyId), Reaches Ex.env fn a t → a = 1 ∨ a = 2 → t = 1 ∨ t = 2 := by
    intro fn a t h
    induction h with
    | refl => exact id
    | step a b c h1 _ ih =>
      intro ha
      apply ih
      rcases ha with rfl | rfl
      · rcases h1 with ⟨d, g1, g2, g3⟩ | ⟨d, g1, g2, g3⟩ | ⟨d, f, g1, g2, g3⟩ <;>
          (simp [Ex.env, Ex.tStr] at g1; subst g1)
        · cases g3
        · exact absurd (Or.inr (Or.inr (Or.inr rfl))) g2.1
        · exact absurd (Or.inr (Or.inr (Or.inr rfl))) g2.1
      · rcases h1 with ⟨d, g1, g2, g3⟩ | ⟨d, g1, g2, g3⟩ | ⟨d, f, g1, g2, g3⟩ <;>
          (simp [Ex.env, Ex.tList] at g1; subst g1)
        · cases g3
        · exact Or.inl (Option.some.inj g3).symm
        · cases g2.2.2.2.1
  constructor
  · intro t ht
    rcases key _ _ _ ht (Or.inr rfl) with rfl | rfl
    · refine ⟨by decide, ?_⟩
      rintro ⟨d, g1, g2⟩
      simp [Ex.env, Ex.tStr] at g1; subst g1
      rcases g2 with ⟨g, _⟩ | ⟨g, _⟩ | ⟨g, _⟩ <;> exact absurd (Or.inr (Or.inr (Or.inr rfl))) g.1
    · refine ⟨by decide, ?_⟩
      rintro ⟨d, g1, g2⟩
      simp [Ex.env, Ex.tList] at g1; subst g1
      rcases g2 with ⟨_, g⟩ | ⟨g, _⟩ | ⟨g, _⟩
      · cases g
      · cases g.2.2.2.1
      · cases g.2.2.2.1
  · intro t ht
    rcases key _ _ _ ht (Or.inr rfl) with rfl | rfl
    · refine ⟨by decide, ?_⟩
      rintro ⟨d, g1, g2⟩
      simp [Ex.env, Ex.tStr] at g1; subst g1
      rcases g2 with ⟨g, _⟩ | ⟨g, _⟩ | ⟨g, _⟩ <;> exact absurd (Or.inr (Or.inr (Or.inr rfl))) g.1
    · refine ⟨by decide, ?_⟩
      rintro ⟨d, g1, g2⟩
      simp [Ex.env, Ex.tList] at g1; subst g1
      rcases g2 with ⟨_, g⟩ | ⟨g, _⟩ | ⟨g, _⟩
      · cases g
      · cases g.2.2.2.1
      · cases g.2.2.2.1

end Reflect.Json.Share
