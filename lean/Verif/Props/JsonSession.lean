import Verif.Spec.JsonSession
import Verif.Props.JsonSorted
/-
  Property C94: a program that parses into its objects and prints them may think of them as values.
-/
namespace Reflect.Json

section
variable {p : Prog} {N : NativeW} {L : Layout} {env : Env} {T : Ty → Prop}

/-- C94. `json::parse(text, object)`: the error returned, or the exception raised, is that of parsing into the value of the object, and
the object then has the value that this gives. -/
theorem C94_parse {smart : Ty → Bool} (hP : Backed p N.toNative L env smart T) (hcl : env.Closed T) (hn : env.Named) {c : PCache} (hc : Parsers env c)
    (other : Other) (F n : Nat) (t : Ty) (hT : T t) (a : Nat) (hp : Heap) (v : JV) (O : Nat → Prop) (hr : Rep p N.toNative L hp t a v O) (s : Bytes) :
    (parseText p N.toNative smart other env (F + 2) n c t a hp s).2 = (parse env n c t v (Reader.open ROpts.default s)).2 ∧
    match (parse env n c t v (Reader.open ROpts.default s)).1 with
    | .error e => (parseText p N.toNative smart other env (F + 2) n c t a hp s).1 = .error e
    | .ok (v', r) => ∃ hp' O', (parseText p N.toNative smart other env (F + 2) n c t a hp s).1 = .ok (hp', r.err) ∧
        Become p N.toNative L hp hp' t a O v' O' := by
  have hw : p.wrap hp t.lref a = .ok (hp, ⟨t.lref, a, none⟩) := C67_lvalue_refers p hp t.lref a rfl
  have hpt : parseText p N.toNative smart other env (F + 2) n c t a hp s =
      ((parseMem p N.toNative smart other env (F + 2) n c t ⟨t.lref, a, none⟩ hp (Reader.open ROpts.default s)).1.map
        fun x => (x.2.1, x.2.2.err),
       (parseMem p N.toNative smart other env (F + 2) n c t ⟨t.lref, a, none⟩ hp (Reader.open ROpts.default s)).2) := by
    unfold parseText; rw [hw]; rfl
  obtain ⟨h1, h2⟩ := C88_parse hP hcl hn hc other F n t hT ⟨t.lref, a, none⟩ rfl hp v O hr (Reader.open ROpts.default s)
  rw [hpt]
  refine ⟨h1, ?_⟩
  cases hq : (parse env n c t v (Reader.open ROpts.default s)).1 with
  | error e => rw [hq] at h2; simp only at h2 ⊢; rw [h2]; rfl
  | ok x =>
    obtain ⟨v', r⟩ := x
    rw [hq] at h2
    obtain ⟨hp', O', e1, e2⟩ := h2
    exact ⟨hp', O', by rw [e1]; rfl, e2⟩

/-- C94. `json::print(writer, object)`: the text and the error of the writer, or the exception, are those of printing the value of the
object; no memory there was changes. -/
theorem C94_print (hB : BackedW p N L env T) (hA : Alphabetic p N.toNative L) (hcl : env.Closed T) (hn : env.Named)
    (hid : ∀ ty ks, env.orderOf ty ks = ks) {c : WCache} (hc : Printers env c) (other : OtherW) (F E n : Nat) (t : Ty) (hT : T t) (a : Nat) (hp : Heap)
    (v : JV) (O : Nat → Prop) (hr : Rep p N.toNative L hp t a v O) (hE : sizeOf v < E) (o : WOpts) :
    (printText p N other env (F + 2) E n c t a hp o).2 = (print env n c t v (Writer.new o)).2 ∧
    match (print env n c t v (Writer.new o)).1 with
    | .error e => (printText p N other env (F + 2) E n c t a hp o).1 = .error e
    | .ok w => ∃ hp', (printText p N other env (F + 2) E n c t a hp o).1 = .ok (hp', w.out, w.err) ∧ Ext hp hp' := by
  have hw : p.wrap hp t.cref a = .ok (hp, ⟨t.cref, a, none⟩) := C67_lvalue_refers p hp t.cref a rfl
  have hpt : printText p N other env (F + 2) E n c t a hp o =
      ((printMem p N other env (F + 2) E n c t ⟨t.cref, a, none⟩ hp (Writer.new o)).1.map fun x => (x.1, x.2.out, x.2.err),
       (printMem p N other env (F + 2) E n c t ⟨t.cref, a, none⟩ hp (Writer.new o)).2) := by
    unfold printText; rw [hw]; rfl
  obtain ⟨h1, h2⟩ := C89_print hB hcl hn hc other F E n t hT ⟨t.cref, a, none⟩ rfl rfl hp v
    (by rw [← order_id hid]; exact hr.shows_sorted hB.sound hA) hE (Writer.new o)
  rw [hpt]
  refine ⟨h1, ?_⟩
  cases hq : (print env n c t v (Writer.new o)).1 with
  | error e => rw [hq] at h2; simp only at h2 ⊢; rw [h2]; rfl
  | ok w =>
    rw [hq] at h2
    obtain ⟨hp', e1, e2⟩ := h2
    exact ⟨hp', by rw [e1]; rfl, e2⟩

/-- one of the objects becomes another value -/
theorem Side.become (hL : L.Sound p N.toNative) {k : Nat} {objs : Fin k → Ty × Nat} {h h' : Heap} {vs : Fin k → JV} {Os : Fin k → Nat → Prop}
    (hs : Side p N.toNative L objs h vs Os) (i : Fin k) {v : JV} {O : Nat → Prop} (hb : Become p N.toNative L h h' (objs i).1 (objs i).2 (Os i) v O) :
    Side p N.toNative L objs h' (fun j => if j = i then v else vs j) (fun j => if j = i then O else Os j) := by
  have hold : ∀ j, ∀ y, OwnCell p (objs j).1 (objs j).2 y ∨ Os j y → y < h.next := by
    intro j y hy
    obtain ⟨⟨o1, o2⟩, o3⟩ := (hs.rep j).own hL
    rcases hy with hy | hy
    · have := hy.2; omega
    · exact (o3 y hy).1
  have hin : ∀ y < h.next, OwnCell p (objs i).1 (objs i).2 y ∨ O y → OwnCell p (objs i).1 (objs i).2 y ∨ Os i y := by
    intro y hy h
    rcases h with h | h
    · exact .inl h
    · exact .inr (hb.mine y hy h)
  constructor
  · intro j
    by_cases hj : j = i
    · subst hj; simp only [if_true]; exact hb.rep
    · simp only [if_neg hj]
      refine (hs.rep j).kept hL hb.grow fun y hy hy2 => ?_
      have := hs.apart j i hj y hy2
      exact hb.same y hy (fun c => this (.inl c)) (fun c => this (.inr c))
  · intro j l hjl y hy hy'
    by_cases hj : j = i
    · subst hj
      have hl : l ≠ j := fun e => hjl e.symm
      simp only [if_true, if_neg hl] at hy hy'
      exact hs.apart j l hjl y (hin y (hold l y hy') hy) hy'
    · simp only [if_neg hj] at hy
      by_cases hl : l = i
      · subst hl
        simp only [if_true] at hy'
        exact hs.apart j l hjl y hy (hin y (hold j y hy) hy')
      · simp only [if_neg hl] at hy'
        exact hs.apart j l hjl y hy hy'

/-- C94. A program that holds any number of objects, none of which is part of another, and makes any sequence of calls of `json::parse`
and `json::print` on them - what it parses may depend on what was printed and reported before - learns from them exactly what it would
learn if its objects were values: the same errors, texts and exceptions. If no exception ends it, its objects have those values at the
end, are still apart, and no memory that was not part of one of them has changed. -/
theorem C94_session {smart : Ty → Bool} (hB : BackedW p N L env T) (hP : Backed p N.toNative L env smart T) (hA : Alphabetic p N.toNative L)
    (hcl : env.Closed T) (hn : env.Named) (hid : ∀ ty ks, env.orderOf ty ks = ks) (other : Other) (otherW : OtherW) (F n : Nat) {k : Nat}
    (objs : Fin k → Ty × Nat) (hT : ∀ i, T (objs i).1) (cs : List (Call k)) :
    ∀ (vs : Fin k → JV) (c : PCache) (cw : WCache) (outs : List Out), Parsers env c → Printers env cw → ∃ E0, ∀ E, E0 ≤ E →
    ∀ (hp : Heap) (Os : Fin k → Nat → Prop), Side p N.toNative L objs hp vs Os →
    (runMem p N smart other otherW env (F + 2) E n objs cs hp c cw outs).1 = (runValues env n (fun i => (objs i).1) cs vs c cw outs).1 ∧
    match (runValues env n (fun i => (objs i).1) cs vs c cw outs).2 with
    | none => (runMem p N smart other otherW env (F + 2) E n objs cs hp c cw outs).2 = none
    | some vs' => ∃ hp' Os', (runMem p N smart other otherW env (F + 2) E n objs cs hp c cw outs).2 = some hp' ∧
        Side p N.toNative L objs hp' vs' Os' ∧ hp.next ≤ hp'.next ∧
        ∀ y < hp.next, (∀ i, ¬ OwnCell p (objs i).1 (objs i).2 y ∧ ¬ Os i y) → hp'.mem y = hp.mem y ∧ ∀ i, ¬ Os' i y := by
  induction cs with
  | nil =>
    intro vs c cw outs _ _
    exact ⟨0, fun E _ hp Os hs => ⟨rfl, hp, Os, rfl, hs, Nat.le_refl _, fun y _ h => ⟨rfl, fun i => (h i).2⟩⟩⟩
  | cons call cs ih =>
    intro vs c cw outs hc hw
    cases call with
    | parse i f =>
      have hnext : ∀ v r c', parse env n c (objs i).1 (vs i) (Reader.open ROpts.default (f outs)) = (.ok (v, r), c') → Parsers env c' := by
        intro v r c' e
        have hg : (getParser env n (objs i).1 c).1 = .ok () := by
          cases hq : (getParser env n (objs i).1 c).1 with
          | ok u => rfl
          | error x =>
            rw [parse] at e
            simp only [hq] at e
            cases e
        have := Parsers.used c n (objs i).1 (vs i) (Reader.open ROpts.default (f outs)) hc hg
        rwa [e] at this
      rcases hq : parse env n c (objs i).1 (vs i) (Reader.open ROpts.default (f outs)) with ⟨res, c'⟩
      cases res with
      | error x =>
        refine ⟨0, fun E _ hp Os hs => ?_⟩
        have h1 := (C94_parse hP hcl hn hc other F n (objs i).1 (hT i) (objs i).2 hp (vs i) (Os i) (hs.rep i) (f outs)).2
        rw [hq] at h1
        simp only at h1
        simp only [runMem, runValues, h1, hq, and_self]
      | ok x =>
        obtain ⟨v, r⟩ := x
        obtain ⟨E0, hE0⟩ := ih (fun j => if j = i then v else vs j) c' cw (outs ++ [.parsed r.err]) (hnext v r c' hq) hw
        refine ⟨E0, fun E hE hp Os hs => ?_⟩
        obtain ⟨h0, h1⟩ := C94_parse hP hcl hn hc other F n (objs i).1 (hT i) (objs i).2 hp (vs i) (Os i) (hs.rep i) (f outs)
        rw [hq] at h0 h1
        simp only at h0
        obtain ⟨hp1, O1, e1, e2⟩ := h1
        have hs1 := hs.become hB.sound i e2
        have key := hE0 E hE hp1 _ hs1
        simp only [runMem, runValues, e1, h0, hq]
        refine ⟨key.1, ?_⟩
        have k2 := key.2
        revert k2
        cases (runValues env n (fun i => (objs i).1) cs (fun j => if j = i then v else vs j) c' cw (outs ++ [.parsed r.err])).2 with
        | none => exact id
        | some vs' =>
          rintro ⟨hp', Os', a1, a2, a3, a4⟩
          refine ⟨hp', Os', a1, a2, Nat.le_trans e2.grow a3, fun y hy hout => ?_⟩
          have hno : ∀ j, ¬ OwnCell p (objs j).1 (objs j).2 y ∧ ¬ (if j = i then O1 else Os j) y := by
            intro j
            refine ⟨(hout j).1, ?_⟩
            by_cases hj : j = i
            · subst hj; simp only [if_true]; exact fun c => (hout j).2 (e2.mine y hy c)
            · simp only [if_neg hj]; exact (hout j).2
          obtain ⟨b1, b2⟩ := a4 y (Nat.lt_of_lt_of_le hy e2.grow) hno
          exact ⟨by rw [b1, e2.same y hy (hout i).1 (hout i).2], b2⟩
    | print i o =>
      have hnext : ∀ w c', print env n cw (objs i).1 (vs i) (Writer.new o) = (.ok w, c') → Printers env c' := by
        intro w c' e
        have hg : (getPrinter env n (objs i).1 cw).1 = .ok () := by
          cases hq : (getPrinter env n (objs i).1 cw).1 with
          | ok u => rfl
          | error x =>
            rw [print] at e
            simp only [hq] at e
            cases e
        have := Printers.used cw n (objs i).1 (vs i) (Writer.new o) hw hg
        rwa [e] at this
      rcases hq : print env n cw (objs i).1 (vs i) (Writer.new o) with ⟨res, c'⟩
      cases res with
      | error x =>
        refine ⟨sizeOf (vs i) + 1, fun E hE hp Os hs => ?_⟩
        have h1 := (C94_print hB hA hcl hn hid hw otherW F E n (objs i).1 (hT i) (objs i).2 hp (vs i) (Os i) (hs.rep i) (by omega) o).2
        rw [hq] at h1
        simp only at h1
        simp only [runMem, runValues, h1, hq, and_self]
      | ok w =>
        obtain ⟨E0, hE0⟩ := ih vs c c' (outs ++ [.printed w.out w.err]) hc (hnext w c' hq)
        refine ⟨max E0 (sizeOf (vs i) + 1), fun E hE hp Os hs => ?_⟩
        obtain ⟨h0, h1⟩ := C94_print hB hA hcl hn hid hw otherW F E n (objs i).1 (hT i) (objs i).2 hp (vs i) (Os i) (hs.rep i) (by omega) o
        rw [hq] at h0 h1
        simp only at h0
        obtain ⟨hp1, e1, e2⟩ := h1
        have hs1 : Side p N.toNative L objs hp1 vs Os :=
          ⟨fun j => (hs.rep j).kept hB.sound e2.grow fun y hy _ => e2.same y hy, hs.apart⟩
        have key := hE0 E (by omega) hp1 _ hs1
        simp only [runMem, runValues, e1, h0, hq]
        refine ⟨key.1, ?_⟩
        have k2 := key.2
        revert k2
        cases (runValues env n (fun i => (objs i).1) cs vs c c' (outs ++ [.printed w.out w.err])).2 with
        | none => exact id
        | some vs' =>
          rintro ⟨hp', Os', a1, a2, a3, a4⟩
          refine ⟨hp', Os', a1, a2, Nat.le_trans e2.grow a3, fun y hy hout => ?_⟩
          obtain ⟨b1, b2⟩ := a4 y (Nat.lt_of_lt_of_le hy e2.grow) hout
          exact ⟨by rw [b1, e2.same y hy], b2⟩

/-- the text that was printed last -/
def lastText (outs : List Out) : Bytes :=
  match outs.getLast? with
  | some (.printed s _) => s
  | _ => []

/-- C94. For example: printing an object and parsing the text into another one of the type copies it, if its value survives (C45). No
other object changes. -/
theorem C94_copy {smart : Ty → Bool} (hB : BackedW p N L env T) (hP : Backed p N.toNative L env smart T) (hA : Alphabetic p N.toNative L)
    (hcl : env.Closed T) (hn : env.Named) (hid : ∀ ty ks, env.orderOf ty ks = ks) (other : Other) (otherW : OtherW) (F : Nat) {k : Nat}
    (objs : Fin k → Ty × Nat) (hT : ∀ i, T (objs i).1) (vs : Fin k → JV) {c : PCache} {cw : WCache} (hc : Parsers env c) (hw : Printers env cw)
    (i j : Fin k) (hij : (objs j).1 = (objs i).1) (o : WOpts) (hvb : ValueBack env cw c o ROpts.default (objs i).1 (vs i) (vs j) (vs i)) :
    ∃ n0 text, ∀ n, n0 ≤ n → ∃ E0, ∀ E, E0 ≤ E → ∀ (hp : Heap) (Os : Fin k → Nat → Prop), Side p N.toNative L objs hp vs Os →
    ∃ hp' Os', runMem p N smart other otherW env (F + 2) E n objs [.print i o, .parse j lastText] hp c cw [] =
        ([.printed text none, .parsed none], some hp') ∧
      Side p N.toNative L objs hp' (fun l => if l = j then vs i else vs l) Os' := by
  obtain ⟨n0, out, h1, h2⟩ := hvb
  refine ⟨n0, out, fun n hn0 => ?_⟩
  obtain ⟨w, w1, w2, w3⟩ := h1 n hn0
  obtain ⟨r, r1, r2, -⟩ := h2 [] (by intro c hc; cases hc) n hn0
  rw [List.append_nil] at r1
  obtain ⟨E0, hE⟩ := C94_session hB hP hA hcl hn hid other otherW F n objs hT [.print i o, .parse j lastText] vs c cw [] hc hw
  refine ⟨E0, fun E hE0 hp Os hs => ?_⟩
  have key := hE E hE0 hp Os hs
  have hv : runValues env n (fun i => (objs i).1) [.print i o, .parse j lastText] vs c cw [] =
      ([.printed out none, .parsed none], some fun l => if l = j then vs i else vs l) := by
    rcases hq : print env n cw (objs i).1 (vs i) (Writer.new o) with ⟨res, c'⟩
    rw [hq] at w1
    cases w1
    have hl : lastText ([] ++ [.printed out none]) = out := rfl
    rcases hq2 : parse env n c (objs j).1 (vs j) (Reader.open ROpts.default out) with ⟨res, c2⟩
    rw [hij] at hq2
    rw [hq2] at r1
    cases r1
    simp only [runValues, hq, w2, w3, hl, hij, hq2, r2]
    rfl
  rw [hv] at key
  obtain ⟨k1, hp', Os', k2, k3, -⟩ := key
  exact ⟨hp', Os', Prod.ext k1 k2, k3⟩

end

/-! ### an example -/

namespace PlaceDemo

/-- two maps: one with two entries at 1, an empty one at 30 -/
def maps (i : Fin 2) : Ty × Nat := (5, if i = 0 then 1 else 30)
def mapValues (i : Fin 2) : JV := if i = 0 then ab else .map []

theorem maps_side : ∃ Os, Side prog nativeW.toNative layout maps (two 25 15) mapValues Os := by
  have hap : ∀ z, (OwnCell prog 5 1 z ∨ (two 25 15).InMap kind 1 z ∧ ¬ OwnCell prog 5 1 z) → ¬ OwnCell prog 5 30 z := by
    intro z hz h
    unfold OwnCell at h hz
    have hs2 : prog.size 5 = 2 := rfl
    simp only [hs2] at h hz
    rcases hz with hz | ⟨hz, -⟩
    · omega
    · rcases hz with hz | hz | ⟨a, ha, hz⟩
      · omega
      · rw [show (two 25 15).mem 1 = 4 from rfl, show (two 25 15).mem (1 + 1) = 2 from rfl] at hz; omega
      · rw [show (two 25 15).nodes 1 = [25, 15] by decide, List.mem_cons, List.mem_singleton] at ha
        simp only [kind] at hz
        rcases ha with rfl | rfl <;> omega
  refine ⟨fun i => if i = 0 then (fun z => (two 25 15).InMap kind 1 z ∧ ¬ OwnCell prog 5 1 z) else fun _ => False, ⟨fun i => ?_, ?_⟩⟩
  · match i with
    | 0 => exact rep_two 25 15 (by simp)
    | 1 => exact rep_empty (a := 30) ⟨by decide, by decide⟩ (by decide)
  · intro i j hij y hy hy'
    match i, j with
    | 0, 0 => exact hij rfl
    | 1, 1 => exact hij rfl
    | 0, 1 =>
      rcases hy' with h | h
      · exact hap y hy h
      · exact h
    | 1, 0 =>
      rcases hy with h | h
      · exact hap y hy' h
      · exact h

/-- The first is printed, and the text parsed into the second. -/
example (other : Other) (otherW : OtherW) : ∃ n E text hp' Os',
    runMem prog nativeW smart other otherW env 2 E n maps [.print 0 WOpts.default, .parse 1 lastText] (two 25 15) [] [] [] =
      ([.printed text none, .parsed none], some hp') ∧
    Side prog nativeW.toNative layout maps hp' (fun _ => ab) Os' := by
  obtain ⟨Os, hs⟩ := maps_side
  obtain ⟨n, text, h⟩ := C94_copy backedW backed alphabetic closed (namedB_spec (by decide)) order_kept other otherW 0 maps (fun i => by simp [T, maps])
    mapValues .fresh .fresh 0 1 rfl WOpts.default ab_back
  obtain ⟨E, h⟩ := h n (Nat.le_refl _)
  obtain ⟨hp', Os', e1, e2⟩ := h E (Nat.le_refl _) (two 25 15) Os hs
  refine ⟨n, E, text, hp', Os', e1, ?_⟩
  have : (fun l : Fin 2 => if l = 1 then mapValues 0 else mapValues l) = fun _ => ab := by
    funext l
    match l with
    | 0 => rfl
    | 1 => rfl
  rwa [this] at e2

end PlaceDemo

end Reflect.Json
