import Verif.Lemmas.Json.GraphFrame
import Verif.Lemmas.Json.Eats
import Verif.Lemmas.Json.Layout
/-
  C81: JSON and pointers that share objects.
-/
namespace Reflect.Json

/-! ### printing -/

/-- C81. What `json::print` writes for a value with pointers is what it writes for the tree the value reads as: an
    object that several pointers share is written once for each of them. -/
theorem C81_print (g : GEnv) (hc : PrintsAlike g) (n d : Nat) (c : WCache) (ty : TyId) (x : GV) (v : JV) (h : GHeap)
    (w : Writer) (hr : h.reads d x = some v) (hd : d ≤ n) :
    printShared g n c ty x h w = print g.env n c ty v w := by
  unfold printShared print
  simp only [print_reads g hc _ h n d ty x v w hr hd]
  cases (getPrinter g.env n ty c).1 <;> rfl

/-- one step down when `x` is printed as a `ty`: to `y`, printed as a `t` -/
inductive Below (g : GEnv) (c : WCache) (h : GHeap) : TyId × GV → TyId × GV → Prop
  | pointee {ty st t a} : Assoc.get c ty = some st → st.kind = .pointer → st.inner = some t →
      Below g c h (ty, .ptr a) (t, h.mem a)
  | item {ty st t vs y} : Assoc.get c ty = some st → st.kind = .list → st.inner = some t → y ∈ vs →
      Below g c h (ty, .list vs) (t, y)
  | entry {ty st t m k y d} : Assoc.get c ty = some st → st.kind = .map → st.inner = some t →
      g.env.types[ty]? = some d → k ∈ d.order (m.map (·.1)) → Assoc.get m k = some y →
      Below g c h (ty, .map m) (t, y)
  /-- a field that is not left out for being empty -/
  | field {ty st fs a k t y} : Assoc.get c ty = some st → st.kind = .object → a ∈ st.sortedKeys →
      Assoc.get st.keys a = some k → Assoc.get st.fields k = some t → Assoc.get fs k = some y →
      (∀ m, isEmptyG g c h m t y ≠ .ok true) → Below g c h (ty, .obj fs) (t, y)

theorem printItems_each {α : Type} {fn : α → Writer → Res Writer} : ∀ {xs : List α} {first : Bool} {w w' : Writer}
    {b : Bool}, printItems fn xs first w = .ok (w', b) → w'.err = none →
    ∀ x ∈ xs, ∃ w1 w2, fn x w1 = .ok w2 ∧ w2.err = none
  | [], _, _, _, _, _, _, x, hx => by simp at hx
  | y :: xs, first, w, w', b, h, he, x, hx => by
    unfold printItems at h
    split at h
    · cases h1 : itemLayout first w with
      | error e => simp only [h1] at h; cases h
      | ok w1 =>
        simp only [h1] at h
        rw [okb] at h
        cases h2 : fn y w1 with
        | error e => rw [h2] at h; cases h
        | ok w2 =>
          rw [h2, okb] at h
          have he2 : w2.err = none := by
            refine Classical.byContradiction fun he2 => ?_
            cases xs with
            | nil => unfold printItems at h; injection h with h; injection h with h _; subst h; exact he2 he
            | cons z zs =>
              unfold printItems at h
              rw [if_neg (fun hh => he2 ((Writer.ok_iff w2).mp hh))] at h
              injection h with h; injection h with h _; subst h; exact he2 he
          rcases List.mem_cons.1 hx with rfl | hx
          · exact ⟨w1, w2, h2, he2⟩
          · exact printItems_each h he x hx
    · rename_i hok
      injection h with h
      injection h with h1 h2
      subst h1
      exact absurd ((Writer.ok_iff w).mpr he) hok

theorem printArray_each {α : Type} {fn : α → Writer → Res Writer} {xs : List α} {w w' : Writer}
    (h : printArray fn xs w = .ok w') (he : w'.err = none) : ∀ x ∈ xs, ∃ w1 w2, fn x w1 = .ok w2 ∧ w2.err = none := by
  unfold printArray at h
  cases h1 : openLayout (decide (xs.length > 1)) (w.push [91]) with
  | error e => simp only [h1] at h; cases h
  | ok w1 =>
    simp only [h1] at h
    rw [okb] at h
    cases h2 : printItems fn xs true w1 with
    | error e => rw [h2] at h; cases h
    | ok p =>
      obtain ⟨w2, b⟩ := p
      rw [h2, okb] at h
      cases b with
      | false =>
        simp only [Bool.false_eq_true, if_false] at h
        injection h with h; subst h
        exact printItems_each h2 he
      | true =>
        simp only [if_true] at h
        cases h3 : closeLayout (decide (xs.length > 1)) w2 with
        | error e => rw [h3] at h; cases h
        | ok w3 =>
          rw [h3, okb] at h
          injection h with h
          obtain ⟨ws2, e3, e4⟩ := closeLayout_spec h3
          exact printItems_each h2 (by rw [← h, e4] at he; exact he)

theorem printMembers_each {fn : Bytes → Writer → Res Writer} {skip : Bytes → Res Bool} :
    ∀ {ks : List Bytes} {first : Bool} {w w' : Writer} {b : Bool}, printMembers fn skip ks first w = .ok (w', b) →
    w'.err = none → ∀ k ∈ ks, skip k ≠ .ok true → ∃ w1 w2, fn k w1 = .ok w2 ∧ w2.err = none
  | [], _, _, _, _, _, _, x, hx, _ => by simp at hx
  | y :: ks, first, w, w', b, h, he, x, hx, hs => by
    unfold printMembers at h
    split at h
    · cases h0 : skip y with
      | error e => rw [h0] at h; cases h
      | ok s =>
        rw [h0, okb] at h
        cases s with
        | true =>
          simp only [if_true] at h
          rcases List.mem_cons.1 hx with rfl | hx
          · exact absurd h0 hs
          · exact printMembers_each h he x hx hs
        | false =>
          simp only [Bool.false_eq_true, if_false] at h
          cases h1 : itemLayout first w with
          | error e => simp only [h1] at h; cases h
          | ok w1 =>
            simp only [h1] at h
            rw [okb] at h
            cases h2 : formatString w1 y with
            | error e => rw [h2] at h; cases h
            | ok w2 =>
              rw [h2, okb] at h
              cases h3 : fn y (w2.push [58]).space with
              | error e => rw [h3] at h; cases h
              | ok w3 =>
                rw [h3, okb] at h
                have he3 : w3.err = none := by
                  refine Classical.byContradiction fun he3 => ?_
                  cases ks with
                  | nil => unfold printMembers at h; injection h with h; injection h with h _; subst h; exact he3 he
                  | cons y ys =>
                    unfold printMembers at h
                    rw [if_neg (fun hh => he3 ((Writer.ok_iff w3).mp hh))] at h
                    injection h with h; injection h with h _; subst h; exact he3 he
                rcases List.mem_cons.1 hx with rfl | hx
                · exact ⟨_, w3, h3, he3⟩
                · exact printMembers_each h he x hx hs
    · rename_i hok
      injection h with h
      injection h with h1 h2
      subst h1
      exact absurd ((Writer.ok_iff w).mpr he) hok

theorem printObject_each {fn : Bytes → Writer → Res Writer} {skip : Bytes → Res Bool} {ks : List Bytes}
    {w w' : Writer} (h : printObject fn skip ks w = .ok w') (he : w'.err = none) :
    ∀ k ∈ ks, skip k ≠ .ok true → ∃ w1 w2, fn k w1 = .ok w2 ∧ w2.err = none := by
  unfold printObject at h
  cases h1 : openLayout (decide (ks.length > 1)) (w.push [123]) with
  | error e => simp only [h1] at h; cases h
  | ok w1 =>
    simp only [h1] at h
    rw [okb] at h
    cases h2 : printMembers fn skip ks true w1 with
    | error e => rw [h2] at h; cases h
    | ok p =>
      obtain ⟨w2, b⟩ := p
      rw [h2, okb] at h
      cases b with
      | false =>
        simp only [Bool.false_eq_true, if_false] at h
        injection h with h; subst h
        exact printMembers_each h2 he
      | true =>
        simp only [if_true] at h
        cases h3 : closeLayout (decide (ks.length > 1)) w2 with
        | error e => rw [h3] at h; cases h
        | ok w3 =>
          rw [h3, okb] at h
          injection h with h
          obtain ⟨ws2, e3, e4⟩ := closeLayout_spec h3
          exact printMembers_each h2 (by rw [← h, e4] at he; exact he)

/-- what is printed without error has everything below it printed without error -/
theorem print_below (g : GEnv) (c : WCache) (h : GHeap) (n : Nat) (p q : TyId × GV) (w w' : Writer)
    (hb : Below g c h p q) (hp : printG g c h (n + 1) p.1 p.2 w = .ok w') (he : w'.err = none) :
    ∃ w1 w2, printG g c h n q.1 q.2 w1 = .ok w2 ∧ w2.err = none := by
  rw [printG.eq_def] at hp
  simp only at hp
  cases hb with
  | pointee h1 h2 h3 =>
    simp only [h1, h2, h3] at hp
    exact ⟨w, w', hp, he⟩
  | item h1 h2 h3 h4 =>
    simp only [h1, h2, h3] at hp
    exact printArray_each hp he _ h4
  | entry h1 h2 h3 h4 h5 h6 =>
    simp only [h1, h2, h3, h4] at hp
    obtain ⟨w1, w2, e1, e2⟩ := printObject_each hp he _ h5 (by simp)
    simp only [h6] at e1
    exact ⟨w1, w2, e1, e2⟩
  | field h1 h2 h3 h4 h5 h6 h7 =>
    simp only [h1, h2] at hp
    obtain ⟨w1, w2, e1, e2⟩ := printObject_each hp he _ h3 (by
      simp only [h4, h5, h6]
      split
      · simp
      · exact h7 n)
    simp only [h4, h5, h6] at e1
    exact ⟨w1, w2, e1, e2⟩

/-- C81. Objects whose pointers lead around in a cycle are never printed: however long it runs, `json::print` does
    not come to an end without an error. `f` goes down for ever, as along a cycle. -/
theorem C81_cycle_not_printed (g : GEnv) (c : WCache) (h : GHeap) (f : Nat → TyId × GV)
    (hf : ∀ i, Below g c h (f i) (f (i + 1))) (n : Nat) (w w' : Writer)
    (hp : printG g c h n (f 0).1 (f 0).2 w = .ok w') : w'.err ≠ none := by
  intro he
  induction n generalizing f w w' with
  | zero => rw [printG.eq_def] at hp; cases hp
  | succ n ih =>
    obtain ⟨w1, w2, e1, e2⟩ := print_below g c h n _ _ w w' (hf 0) hp he
    exact ih (fun i => f (i + 1)) (fun i => hf (i + 1)) w1 w2 e1 e2

/-! ### parsing -/

/-- C81. `json::parse` changes no object that cannot be reached along pointers from the object it parses into,
    whatever is shared and whatever is circular. -/
theorem C81_unreached (g : GEnv) (hg : Confined g) (n : Nat) (c : PCache) (ty : TyId) (pl pl' : Place) (h h' : GHeap)
    (r r' : Reader) (hd : ∀ b, Reach h pl.addr b → b < h.next)
    (hp : (parseShared g n c ty pl h r).1 = .ok (pl', h', r')) (b : Nat) (hb : b < h.next)
    (hr : ¬ Reach h pl.addr b) : h'.mem b = h.mem b := by
  unfold parseShared at hp
  simp only at hp
  split at hp
  · cases hp
  · refine (parse_within g hg _ _ n ty pl h r pl' h' r' (closed_reach hd) (Or.inl .refl) (hd _ .refl) hp).same b ?_
    rintro (h1 | h1)
    · exact hr h1
    · omega

/-- C81. Where no object is shared, by smart pointers, `json::parse` does to the objects what it does to the tree they
    read as (for which C52, C54 and C63 say what that is): it fails alike, and otherwise what is parsed reads as the
    parsed tree, still without sharing. It is the same place that holds it, and no other object has changed. -/
theorem C81_parse_tree (g : GEnv) (hc : ParsesAlike g) (n d : Nat) (c : PCache) (ty : TyId) (pl : Place) (x : GV)
    (v : JV) (h : GHeap) (r : Reader) (hg : SmartOnly g (parse g.env n c ty v r).2)
    (hx : h.get pl = some x) (hv : h.reads d x = some v)
    (hn : (h.owns d x).Nodup) (hl : ∀ a ∈ h.owns d x, a < h.next) (hp : pl.addr < h.next) (hs : pl.addr ∉ h.owns d x) :
    match (parse g.env n c ty v r).1 with
    | .error e => (parseShared g n c ty pl h r).1 = .error e
    | .ok p => ∃ h' x' d', (parseShared g n c ty pl h r).1 = .ok (pl, h', p.2) ∧
        h'.get pl = some x' ∧ h'.reads d' x' = some p.1 ∧ (h'.owns d' x').Nodup ∧ pl.addr ∉ h'.owns d' x' ∧
        (∀ a ∈ h'.owns d' x', a < h'.next ∧ (a ∈ h.owns d x ∨ h.next ≤ a)) ∧
        (∀ b < h.next, b ∉ h.owns d x → b ≠ pl.addr → h'.mem b = h.mem b) ∧
        (∃ y, h'.mem pl.addr = (h.mem pl.addr).put pl.path y) := by
  unfold parse at hg ⊢
  unfold parseShared
  simp only at hg ⊢
  cases hq : (getParser g.env n ty c).1 with
  | error e => simp only
  | ok u =>
    rw [hq] at hg
    simp only at hg ⊢
    have := parse_agree g hc _ hg n ty pl v (h.owns d x) h r ⟨hp, hs, hn, hl, x, hx, d, hv, rfl⟩
    cases hv' : parseV g.env (getParser g.env n ty c).2 n ty v r with
    | error e => rw [hv'] at this; exact this
    | ok p =>
      rw [hv'] at this
      obtain ⟨h', e1, ⟨e2, e3, e4⟩, s', ⟨f1, f2, f3, f4, x', f5, d', f6, rfl⟩, f7⟩ := this
      exact ⟨h', x', d', e1, f5, f6, f3, f2, fun a ha => ⟨f4 a ha, f7 a ha⟩, e3, e4⟩

/-- C81. `null` for a smart pointer resets that pointer, and nothing else: what it pointed to stays as it is for
    every other pointer to it. -/
theorem C81_null_smart (g : GEnv) (c : PCache) (n : Nat) (ty : TyId) (st : PState) (pl pl' : Place) (x : GV)
    (h h' : GHeap) (r r1 r' : Reader) (t : Token) (hst : Assoc.get c ty = some st) (hk : st.kind = .pointer)
    (hs : g.smart ty = true) (ht : r.peekToken = .ok (t, r1)) (hn : t.type = .null) (hx : h.get pl = some x)
    (hp : parseG g c (n + 1) ty pl h r = .ok (pl', h', r')) :
    pl' = pl ∧ h'.get pl = some .null ∧ (∀ b, b ≠ pl.addr → h'.mem b = h.mem b) ∧
      h'.mem pl.addr = (h.mem pl.addr).put pl.path .null := by
  rw [parseG.eq_def] at hp
  simp only [hst, hk, ht, okb, hn, hs, if_true] at hp
  obtain ⟨q, hq, hp⟩ := Res.bind_ok hp
  cases hp
  exact ⟨rfl, put_get _ hx, fun b hb => put_mem_ne _ _ _ hb, by simp [GHeap.put]⟩

/-- C81. `null` for a raw pointer changes no object there was, so the pointer goes on pointing where it did: it is
    the `Value` that is made to refer to something else, a new object of the pointee's type. -/
theorem C81_null_raw (g : GEnv) (c : PCache) (n : Nat) (ty : TyId) (st : PState) (pl pl' : Place)
    (h h' : GHeap) (r r1 r' : Reader) (t : Token) (hst : Assoc.get c ty = some st) (hk : st.kind = .pointer)
    (hs : g.smart ty = false) (ht : r.peekToken = .ok (t, r1)) (hn : t.type = .null) (hl : pl.addr < h.next)
    (hp : parseG g c (n + 1) ty pl h r = .ok (pl', h', r')) :
    pl' ≠ pl ∧ (∀ b < h.next, h'.mem b = h.mem b) ∧ h'.get pl = h.get pl ∧
      ∃ t v, st.inner = some t ∧ g.env.construct t = .ok v ∧ pl'.path = [] ∧ ∃ d, h'.reads d (h'.mem pl'.addr) = some v := by
  rw [parseG.eq_def] at hp
  simp only [hst, hk, ht, okb, hn, hs, if_true, Bool.false_eq_true, if_false] at hp
  obtain ⟨q, hq, hp⟩ := Res.bind_ok hp
  cases hi : st.inner with
  | none => rw [hi] at hp; cases hp
  | some t =>
    simp only [hi] at hp
    obtain ⟨m, hm, hp⟩ := Res.bind_ok hp
    cases hp
    unfold GEnv.construct at hm
    obtain ⟨v, hv, hm⟩ := Res.bind_ok hm
    cases hm
    obtain ⟨m, h2, s, e1, e2, e3, e4, e5, e6, e7⟩ := made_own v h
    simp only [e1]
    obtain ⟨d, e6, _⟩ := e6
    refine ⟨fun hh => ?_, e2.2, get_grows hl e2, t, v, rfl, hv, trivial, d, e6⟩
    have : m = pl.addr := by rw [← hh]
    omega

/-- C81. An array element or map entry that is a raw pointer cannot be `null`: the new object is not of the
    element's type, so that parsing raises. Here for the first element of an array. -/
theorem C81_null_element (g : GEnv) (c : PCache) (n : Nat) (ty t : TyId) (st su : PState) (pl : Place) (h : GHeap)
    (o : ROpts) (text y : Bytes) (b nul : Token) (vb vn : Option Bytes) (p : Tok) (ts : List Tok)
    (res : Place × GHeap × Reader)
    (hst : Assoc.get c ty = some st) (hk : st.kind = .list) (hi : st.inner = some t)
    (hsu : Assoc.get c t = some su) (hku : su.kind = .pointer) (hs : g.smart t = false)
    (hr : Reads o text ((b, vb) :: (nul, vn) :: p :: ts) y) (ho : b.type = .arrayStart) (hn : nul.type = .null) :
    parseG g c (n + 3) ty pl h (Reader.open o text) ≠ .ok res := by
  obtain ⟨r1, h1, f1, _⟩ := (FedR.open hr).fed.next
  obtain ⟨r2, h2, f2, _⟩ := f1.fed.peek
  obtain ⟨r3, h3, f3, _⟩ := f2.peek
  have hok : r2.ok = true := f2.ok (Or.inl (by simp))
  have hok3 : ∀ u r4, r3.nextToken = .ok (u, r4) → r4.ok = true := by
    intro u r4 hu
    obtain ⟨r5, h5, f5, _⟩ := f3.next
    rw [h5] at hu
    cases hu
    exact f5.ok (Or.inl (by simp))
  generalize Reader.open o text = r at h1 ⊢
  intro hp
  rw [parseG.eq_def] at hp
  simp only [hst, hk, hi] at hp
  cases hg : h.get pl with
  | none => rw [hg] at hp; cases hp
  | some x =>
    rw [hg] at hp
    cases x with
    | list vs =>
      simp only at hp
      obtain ⟨q, hq, _⟩ := Res.bind_ok hp
      unfold parseArray at hq
      rw [h1, okb, if_neg (by rw [ho]; decide), mayAssert_eq r1 ho, okb, show (r1.assertToken b .arrayStart).2 = r1 from assertToken_eq r1 ho, h2,
        okb, if_neg (by rw [hn]; decide)] at hq
      rw [arrLoop.eq_def] at hq
      simp only [hok, if_true] at hq
      obtain ⟨z, hz, _⟩ := Res.bind_ok hq
      obtain ⟨m, hm, hz⟩ := Res.bind_ok hz
      obtain ⟨w, hw, hz⟩ := Res.bind_ok hz
      have hml : m.1 < m.2.next := by
        unfold GEnv.construct at hm
        obtain ⟨v, hv, hm⟩ := Res.bind_ok hm
        cases hm
        exact Nat.lt_succ_self _
      obtain ⟨e1, _⟩ := C81_null_raw g c (n + 1) t su ⟨m.1, []⟩ w.1 m.2 w.2.1 r2 r3 w.2.2 nul hsu hku hs h3 hn hml hw
      have hwk : w.2.2.ok = true := by
        rw [parseG.eq_def] at hw
        simp only [hsu, hku, h3, okb, hn, hs, if_true, Bool.false_eq_true, if_false] at hw
        obtain ⟨u, hu, hw⟩ := Res.bind_ok hw
        have := hok3 u.1 u.2 hu
        cases hi' : su.inner with
        | none => rw [hi'] at hw; cases hw
        | some t' =>
          simp only [hi'] at hw
          obtain ⟨_, _, hw⟩ := Res.bind_ok hw
          cases hw
          exact this
      rw [if_pos hwk, if_neg e1] at hz
      cases hz
    | _ => cases hp

/-- parsing an element or entry: into a new object, which must still be the one meant when it is put into the container -/
theorem null_not_taken (g : GEnv) (c : PCache) (n : Nat) (t : TyId) (su : PState) (o : ROpts) (y : Bytes) (h : GHeap)
    (put : Place × GHeap × Reader → Nat × GHeap → Res (GHeap × Reader))
    (hput : ∀ q m, q.2.2.err = none → q.2.2.ok = true → q.1 ≠ ⟨m.1, []⟩ → ∀ w, put q m ≠ .ok w)
    (hsu : Assoc.get c t = some su) (hku : su.kind = .pointer) (hs : g.smart t = false)
    (ht : Took o y .null (fun r => do
      let m ← g.construct t h
      let q ← parseG g c n t ⟨m.1, []⟩ m.2 r
      put q m)) : False := by
  obtain ⟨ts, r, q, hts, hf, hq, he⟩ := ht
  dsimp only at hq
  obtain ⟨m, hm, hq1⟩ := bind_ok hq
  obtain ⟨w, hw, hQ⟩ := bind_ok hq1
  have hml : m.1 < m.2.next := by
    unfold GEnv.construct at hm
    obtain ⟨v, hv, hm⟩ := bind_ok hm
    cases hm
    exact Nat.lt_succ_self _
  cases n with
  | zero => cases hw
  | succ n =>
    have hf' : Fed o (Tok.null :: ts) y r := hf
    obtain ⟨r1, h1, f1, _⟩ := hf'.peek
    obtain ⟨e1, _⟩ := C81_null_raw g c n t su ⟨m.1, []⟩ w.1 m.2 w.2.1 r r1 w.2.2 _ hsu hku hs h1 rfl hml hw
    have hfed : FedR o ts y w.2.2 := by
      rw [parseG.eq_def] at hw
      simp only [hsu, hku, h1, okb, hs, if_true, Bool.false_eq_true, if_false] at hw
      obtain ⟨u, hu, hw⟩ := bind_ok hw
      obtain ⟨_, hu2⟩ := next_det f1 hu
      cases hi' : su.inner with
      | none => rw [hi'] at hw; cases hw
      | some t' =>
        simp only [hi'] at hw
        obtain ⟨_, _, hw⟩ := bind_ok hw
        cases hw
        exact hu2
    exact hput w m hfed.err (hfed.ok (Or.inl hts)) e1 q hQ

/-- C81. Nor can any other element: an array of raw pointers with a `null` in it, wherever it is, is never parsed without an
    error, be it raised or left in the reader. (Custom parsers must read a document each.) -/
theorem C81_null_in_array (g : GEnv) (hg : OneDocument g) (c : PCache) (n : Nat) (ty t : TyId) (st su : PState) (pl : Place)
    (h : GHeap) (o : ROpts) (text y : Bytes) (xs : List JTree) (res : Place × GHeap × Reader)
    (hst : Assoc.get c ty = some st) (hk : st.kind = .list) (hi : st.inner = some t)
    (hsu : Assoc.get c t = some su) (hku : su.kind = .pointer) (hs : g.smart t = false)
    (hr : Reads o text (JTree.arr xs).toks y) (hn : JTree.null ∈ xs)
    (hp : parseG g c n ty pl h (Reader.open o text) = .ok res) : res.2.2.err ≠ none := by
  intro he
  cases n with
  | zero => cases hp
  | succ n =>
    rw [parseG.eq_def] at hp
    simp only [hst, hk, hi] at hp
    split at hp
    · rename_i t' vs heq1 _
      cases heq1
      obtain ⟨z, hz, hp⟩ := bind_ok hp
      cases hp
      have hf : Fed o ((JTree.arr xs).toks ++ []) y (Reader.open o text) := by simpa using (FedR.open hr).fed
      have key := fun hfn => (parseArray_eats hfn (.arr xs) n h z hf hz he).2 xs rfl _ hn
      obtain ⟨i, a, hk⟩ := key (by
        intro x i a o ts y r q hts hf hq he
        obtain ⟨m, hm, hq⟩ := bind_ok hq
        obtain ⟨w, hw, hq⟩ := bind_ok hq
        have hw2 : q.2 = w.2.2 := by
          split at hq
          · split at hq
            · split at hq
              · cases hq; rfl
              · cases hq
            · cases hq
          · cases hq; rfl
        rw [hw2] at he ⊢
        exact parseG_eats g hg c n t _ _ x o ts y r w hts hf hw he)
      refine null_not_taken g c n t su o y a (fun q m => if q.2.2.ok then
              if q.1 = ⟨m.1, []⟩ then
                match q.2.1.get pl with
                | some (.list vs) => .ok ((q.2.1.put pl (.list (vs ++ [q.2.1.mem m.1]))).drop m.1, q.2.2)
                | _ => .error .err
              else .error .err
            else .ok (q.2.1.drop m.1, q.2.2)) ?_ hsu hku hs hk
      intro q m _ hok hne w hw
      simp only [hok, if_true, hne, if_false] at hw
      cases hw
    · rename_i heq1 _
      cases heq1
    · cases hp

/-- C81. The same of the entries of a map. -/
theorem C81_null_in_map (g : GEnv) (hg : OneDocument g) (c : PCache) (n : Nat) (ty t : TyId) (st su : PState) (pl : Place)
    (h : GHeap) (o : ROpts) (text y : Bytes) (ms : List (Bytes × JTree)) (k : Bytes) (res : Place × GHeap × Reader)
    (hst : Assoc.get c ty = some st) (hk : st.kind = .map) (hi : st.inner = some t)
    (hsu : Assoc.get c t = some su) (hku : su.kind = .pointer) (hs : g.smart t = false)
    (hr : Reads o text (JTree.obj ms).toks y) (hn : (k, JTree.null) ∈ ms)
    (hp : parseG g c n ty pl h (Reader.open o text) = .ok res) : res.2.2.err ≠ none := by
  intro he
  cases n with
  | zero => cases hp
  | succ n =>
    rw [parseG.eq_def] at hp
    simp only [hst, hk, hi] at hp
    split at hp
    · rename_i t' vs heq1 _
      cases heq1
      obtain ⟨z, hz, hp⟩ := bind_ok hp
      cases hp
      have hf : Fed o ((JTree.obj ms).toks ++ []) y (Reader.open o text) := by simpa using (FedR.open hr).fed
      have key := fun hfn => (parseObject_eats hfn (.obj ms) n h z hf hz he).2 ms rfl _ hn
      obtain ⟨a, hk⟩ := key (by
        intro x i a o ts y r q hts hf hq he
        obtain ⟨m, hm, hq⟩ := bind_ok hq
        obtain ⟨w, hw, hq⟩ := bind_ok hq
        have hw2 : q.2 = w.2.2 := by
          split at hq
          · split at hq
            · split at hq
              · cases hq; rfl
              · cases hq
            · cases hq
          · cases hq; rfl
        rw [hw2] at he ⊢
        exact parseG_eats g hg c n t _ _ x o ts y r w hts hf hw he)
      refine null_not_taken g c n t su o y a (fun q m => if q.2.2.ok then
              if q.1 = ⟨m.1, []⟩ then
                match q.2.1.get pl with
                | some (.map kvs) => .ok ((q.2.1.put pl (.map (gput kvs k (q.2.1.mem m.1)))).drop m.1, q.2.2)
                | _ => .error .err
              else .error .err
            else .ok (q.2.1.drop m.1, q.2.2)) ?_ hsu hku hs hk
      intro q m _ hok hne w hw
      simp only [hok, if_true, hne, if_false] at hw
      cases hw
    · rename_i heq1 _
      cases heq1
    · cases hp

/-- C81. A pointer that points to something is parsed into where it points: it keeps pointing there, and so does any
    other pointer to the same object, which has the parsed contents for both of them. (A pointer that the object
    itself leads to may be parsed over on the way.) -/
theorem C81_alias (g : GEnv) (hg : Confined g) (c : PCache) (n : Nat) (ty : TyId) (st : PState) (t : TyId)
    (pl pl2 pl' : Place) (a : Nat) (h h' : GHeap) (r r1 r' : Reader) (tk : Token) (hst : Assoc.get c ty = some st)
    (hk : st.kind = .pointer) (hi : st.inner = some t) (ht : r.peekToken = .ok (tk, r1)) (hn : tk.type ≠ .null)
    (h1 : h.get pl = some (.ptr a)) (h2 : h.get pl2 = some (.ptr a)) (hl1 : pl.addr < h.next) (hl2 : pl2.addr < h.next)
    (hd : ∀ b, Reach h a b → b < h.next) (hr1 : ¬ Reach h a pl.addr) (hr2 : ¬ Reach h a pl2.addr)
    (hp : parseG g c (n + 1) ty pl h r = .ok (pl', h', r')) :
    pl' = pl ∧ h'.get pl = some (.ptr a) ∧ h'.get pl2 = some (.ptr a) ∧
      ∃ q, parseG g c n t ⟨a, []⟩ h r1 = .ok (q, h', r') := by
  rw [parseG.eq_def] at hp
  simp only [hst, hk, ht, okb, hn, if_false, hi, h1] at hp
  obtain ⟨q, hq, hp⟩ := Res.bind_ok hp
  cases hp
  have w := parse_within g hg c _ n t ⟨a, []⟩ h r1 _ _ _ (closed_reach hd) (Or.inl .refl) (hd _ .refl) hq
  have e : ∀ p : Place, p.addr < h.next → ¬ Reach h a p.addr → q.2.1.get p = h.get p := by
    intro p hp hr
    simp only [GHeap.get]
    rw [w.same p.addr (fun h3 => h3.elim hr (by omega))]
  exact ⟨rfl, by rw [e pl hl1 hr1, h1], by rw [e pl2 hl2 hr2, h2], q.1, hq⟩

/-- C81. A null pointer is made to point to a new object, which no other pointer has, and the contents are parsed
    into that. -/
theorem C81_null_allocates (g : GEnv) (hg : Confined g) (c : PCache) (n : Nat) (ty : TyId) (st : PState) (t : TyId)
    (pl pl' : Place) (h h' : GHeap) (r r1 r' : Reader) (tk : Token) (hst : Assoc.get c ty = some st)
    (hk : st.kind = .pointer) (hi : st.inner = some t) (ht : r.peekToken = .ok (tk, r1)) (hn : tk.type ≠ .null)
    (h1 : h.get pl = some .null) (hl : pl.addr < h.next)
    (hp : parseG g c (n + 1) ty pl h r = .ok (pl', h', r')) :
    pl' = pl ∧ (∃ m, h'.get pl = some (.ptr m) ∧ h.next ≤ m ∧ m < h'.next) ∧
      ∀ b < h.next, b ≠ pl.addr → h'.mem b = h.mem b := by
  rw [parseG.eq_def] at hp
  simp only [hst, hk, ht, okb, hn, if_false, hi, h1] at hp
  obtain ⟨m, hm, hp⟩ := Res.bind_ok hp
  obtain ⟨q, hq, hp⟩ := Res.bind_ok hp
  cases hp
  have hc : Closed (fun b => h.next ≤ b) h := ⟨fun a ha => ha, fun a ha hl => by omega⟩
  obtain ⟨w, hs, hml⟩ := allocate_within hc hm
  have w2 := parse_within g hg c _ n t ⟨m.1, []⟩ m.2 r1 _ _ _ w.closed hs hml hq
  have e : q.2.1.get pl = some .null := by
    simp only [GHeap.get]
    rw [(w.trans w2).same pl.addr (by omega)]
    exact h1
  refine ⟨rfl, ⟨m.1, put_get _ e, hs, Nat.lt_of_lt_of_le hml w2.next⟩, fun b hb hbp => ?_⟩
  rw [put_mem_ne _ _ _ hbp]
  exact (w.trans w2).same b (by omega)

/-! ### examples -/
namespace Ex81

def ofStr (s : String) : Bytes := s.toList.map fun c => UInt8.ofNat c.toNat

/-- a list node `{v, next}` (type 2) with an `int` (type 0) and a pointer to a node (type 1) -/
def nodeEnv : Env :=
  { types := [{ isInt := true, make := some (.int 0) }, { pointee := some 2, make := some .null },
      { fields := [{ name := (ofStr "v"), type := 0 }, { name := (ofStr "next"), type := 1 }],
        make := some (.obj [((ofStr "v"), .int 0), ((ofStr "next"), .null)]), alloc := true },
      { isList := true, valueType := some 1, make := some (.list []) }],
    fmtG := fun _ => [], stod := fun _ => .error .err }

/-- with `std::shared_ptr<Node>`, and with `Node*` -/
def nodes (smart : Bool) : GEnv := { env := nodeEnv, smart := fun _ => smart }

def nodeOf (v : Int) (next : GV) : GV := .obj [((ofStr "v"), .int v), ((ofStr "next"), next)]

/-- two pointers (objects 0 and 1) to the node 2, whose successor is the node 3 -/
def shared : GHeap :=
  { mem := fun a => match a with | 0 => .ptr 2 | 1 => .ptr 2 | 2 => nodeOf 5 (.ptr 3) | 3 => nodeOf 6 .null | _ => .void,
    next := 4 }

/-- a node that is its own successor -/
def loop : GHeap := { mem := fun a => match a with | 0 => .ptr 1 | _ => nodeOf 7 (.ptr 1), next := 2 }

def parsedAt (x : Res (Place × GHeap × Reader)) (d : Nat) (pl : Place) : Option JV :=
  match x with
  | .error _ => none
  | .ok q => (q.2.1.get pl).bind (q.2.1.reads d)

def faultOf (x : Res (Place × GHeap × Reader)) : Option Fault := match x with | .error e => some e | .ok _ => none

def printedText (x : Res Writer) : Option Bytes := match x with | .error _ => none | .ok w => some w.out

def nodeTree (v : Int) (next : JV) : JV := .obj [((ofStr "v"), .int v), ((ofStr "next"), next)]

/-- their parsers and printers -/
def parsers : PCache :=
  [(3, { kind := .list, inner := some 1 }), (1, { kind := .pointer, inner := some 2 }), (0, { kind := .int }),
    (2, { kind := .object, keys := [(ofStr "next", ofStr "next"), (ofStr "v", ofStr "v")],
          fields := [(ofStr "next", 1), (ofStr "v", 0)] })]

def printers : WCache :=
  [(3, { kind := .list, inner := some 1 }), (1, { kind := .pointer, inner := some 2 }), (0, { kind := .int }),
    (2, { kind := .object, sortedKeys := [ofStr "next", ofStr "v"],
          keys := [(ofStr "v", ofStr "v"), (ofStr "next", ofStr "next")],
          fields := [(ofStr "v", 0), (ofStr "next", 1)] })]

-- these are the parsers that are found for the types
example : (getParser nodeEnv 9 3 []).1 = .ok () ∧
    ∀ ty < 4, Assoc.get (getParser nodeEnv 9 3 []).2 ty = Assoc.get parsers ty := by
  have e1 : ofStr "v" = [118] := by decide +kernel
  have e2 : ofStr "next" = [110, 101, 120, 116] := by decide +kernel
  simp [getParser, initFields, initInner, nodeEnv, TyD.parserKind, TyD.customParser, FieldD.alias?, Assoc.get, Assoc.set,
    Assoc.erase, Assoc.emplace, parsers, e1, e2]
  decide

def readText (s : String) : Reader := Reader.open ⟨false, false, false⟩ (ofStr s)

-- an array of two pointers to the node 3 prints it twice
example : shared.reads 5 (.list [.ptr 3, .ptr 3]) = some (.list [.ptr (nodeTree 6 .null), .ptr (nodeTree 6 .null)]) ∧
    printedText (printG (nodes true) printers shared 20 3 (.list [.ptr 3, .ptr 3])
      { opts := ⟨false, true, false, false⟩ }) = some (ofStr "[{\"v\":6},{\"v\":6}]") := by decide +kernel

-- parsing through the pointer 0 changes what the pointer 1 reads, node 3 included
example : parsedAt (parseG (nodes true) parsers 60 1 ⟨0, []⟩ shared
      (readText "{\"v\":8,\"next\":{\"v\":9}}")) 9 ⟨1, []⟩
    = some (.ptr (nodeTree 8 (.ptr (nodeTree 9 .null)))) := by decide +kernel

-- `null` for the smart pointer 0: the pointer 1 still has the node
example : parsedAt (parseG (nodes true) parsers 60 1 ⟨0, []⟩ shared (readText "null")) 9 ⟨0, []⟩ = some .null ∧
    parsedAt (parseG (nodes true) parsers 60 1 ⟨0, []⟩ shared (readText "null")) 9 ⟨1, []⟩
      = some (.ptr (nodeTree 5 (.ptr (nodeTree 6 .null)))) := by decide +kernel

-- `null` for the raw pointer in the node 2 leaves it pointing to the node 3
example : parsedAt (parseG (nodes false) parsers 60 2 ⟨2, []⟩ shared (readText "{\"next\":null}")) 9 ⟨2, []⟩
    = some (nodeTree 5 (.ptr (nodeTree 6 .null))) := by decide +kernel

-- and in an array of raw pointers it is refused
example : faultOf (parseG (nodes false) parsers 60 3 ⟨0, []⟩ { mem := fun _ => .list [], next := 1 }
    (readText "[null]")) = some .err := by decide +kernel

-- also behind another element, and as an entry of a map: the hypotheses of C81_null_in_array
example : OneDocument (nodes false) ∧ (nodes false).smart 1 = false ∧
    (∃ st, Assoc.get parsers 3 = some st ∧ st.kind = .list ∧ st.inner = some 1) ∧
    (∃ su, Assoc.get parsers 1 = some su ∧ su.kind = .pointer) ∧
    faultOf (parseG (nodes false) parsers 60 3 ⟨0, []⟩ { mem := fun _ => .list [], next := 1 }
      (readText "[{\"v\":1},null]")) = some .err :=
  ⟨fun _ _ _ h => by simp [nodes] at h, rfl, by decide +kernel, by decide +kernel, by decide +kernel⟩

-- the node that is its own successor reads as no tree, and is not printed
example : ∀ d, d < 12 → loop.reads d (.ptr 1) = none := by decide +kernel

example : ∀ (n : Nat) (w w' : Writer), printG (nodes true) printers loop n 1 (.ptr 1) w = .ok w' →
    w'.err ≠ none := by
  have e0 : ∃ st, Assoc.get printers 1 = some st ∧ st.kind = .pointer ∧ st.inner = some 2 := by
    decide +kernel
  have e1 : ∃ st, Assoc.get printers 2 = some st ∧ st.kind = .object ∧
      (ofStr "next") ∈ st.sortedKeys ∧
      Assoc.get st.keys (ofStr "next") = some (ofStr "next") ∧
      Assoc.get st.fields (ofStr "next") = some 1 := by decide +kernel
  obtain ⟨st0, a1, a2, a3⟩ := e0
  obtain ⟨st1, b1, b2, b3, b4, b5⟩ := e1
  have hm : loop.mem 1 = nodeOf 7 (.ptr 1) := rfl
  intro n w w' hp
  refine C81_cycle_not_printed (nodes true) printers loop
    (fun i => if i % 2 = 0 then (1, .ptr 1) else (2, nodeOf 7 (.ptr 1))) (fun i => ?_) n w w' (by simpa using hp)
  by_cases hi : i % 2 = 0
  · rw [if_pos hi, if_neg (by omega), ← hm]
    exact .pointee a1 a2 a3
  · rw [if_neg hi, if_pos (by omega)]
    refine .field (y := .ptr 1) b1 b2 b3 b4 b5
      (by rw [Assoc.get_cons, if_neg (by decide +kernel), Assoc.get_cons, if_pos rfl]) fun m => ?_
    intro he
    rw [isEmptyG.eq_def] at he
    cases m with
    | zero => cases he
    | succ m =>
      simp only [a1, a2, a3] at he
      rw [isEmptyG.eq_def] at he
      cases m with
      | zero => cases he
      | succ m => simp only [b1, b2] at he; cases he

-- the hypotheses on custom parsers and printers hold where there are none, and those on the parsers for the list
example : Confined (nodes b) ∧ ParsesAlike (nodes b) ∧ PrintsAlike (nodes b) :=
  ⟨fun _ _ _ h => by simp [nodes] at h, fun _ _ => ⟨by simp [nodes, nodeEnv], fun _ _ h => by simp [nodes] at h⟩,
    fun _ _ => ⟨by simp [nodes, nodeEnv], fun _ _ h => by simp [nodes] at h⟩⟩

example : SmartOnly (nodes true) parsers := by
  intro ty st h
  simp only [parsers, Assoc.get_cons, Assoc.get] at h
  refine ⟨?_, fun _ => rfl⟩
  repeat' (split at h)
  all_goals (first | (injection h with h; subst h; decide) | cases h)

-- the pointer 0 leads to the two nodes, met once each; it is at the end of no path from there
example : shared.reads 9 (.ptr 2) = some (.ptr (nodeTree 5 (.ptr (nodeTree 6 .null)))) ∧
    shared.owns 9 (.ptr 2) = [2, 3] ∧ shared.get ⟨0, []⟩ = some (.ptr 2) := ⟨by decide +kernel, by decide +kernel, rfl⟩

theorem shared_reach : ∀ b, Reach shared 2 b → b = 2 ∨ b = 3 := by
  intro b hb
  induction hb with
  | refl => exact Or.inl rfl
  | @step b c hb hm ih =>
    rcases ih with rfl | rfl
    · cases hm with
      | field h1 h2 =>
        simp only [List.mem_cons, List.not_mem_nil, or_false] at h1
        rcases h1 with rfl | rfl
        · cases h2
        · cases h2; exact Or.inr rfl
    · cases hm with
      | field h1 h2 =>
        simp only [List.mem_cons, List.not_mem_nil, or_false] at h1
        rcases h1 with rfl | rfl <;> cases h2

example : (∀ b, Reach shared 2 b → b < shared.next) ∧ ¬ Reach shared 2 0 ∧ ¬ Reach shared 2 1 := by
  refine ⟨fun b hb => ?_, fun h => ?_, fun h => ?_⟩
  · rcases shared_reach b hb with rfl | rfl <;> decide
  · rcases shared_reach 0 h with h | h <;> cases h
  · rcases shared_reach 1 h with h | h <;> cases h

end Ex81

end Reflect.Json
