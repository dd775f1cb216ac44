import Verif.Props.StdTypes
import Verif.Props.TypeGraph
/-
  C76, continued: how the described types are used.
-/
namespace Reflect
open Spec (Sig signatures rows Offers)

theorem pair_of_map {α β : Type} {f : α → β} {o : List α} {x y : β} (h : o.map f = [x, y]) :
    ∃ a b, o = [a, b] ∧ f a = x ∧ f b = y := by
  match o, h with
  | [a, b], h => exact ⟨a, b, rfl, by simpa using h⟩

theorem select_pair (e : Env) (f g : Fn) (want : Arg) (args : List Arg) :
    Overloads.select e [f, g] want args =
      match f.test e want args, g.test e want args with
      | .exact, _ => .ok f
      | _, .exact => .ok g
      | .part, .none => .ok f
      | .none, .part => .ok g
      | _, _ => .error .err := by
  rw [C27_select]
  unfold Spec.choose
  cases h1 : f.test e want args <;> cases h2 : g.test e want args <;> simp [List.filter_cons, h1, h2]

theorem testArguments_pair (e : Env) (a b p q : Arg) :
    testArguments e [a, b] [p, q] = combine (isConvertibleTo e a p) (isConvertibleTo e b q) := by
  simp only [testArguments, List.length, testArgumentsLoop]
  cases isConvertibleTo e a p <;> cases isConvertibleTo e b q <;> simp [combine]

theorem testArguments_single (e : Env) (a p : Arg) :
    testArguments e [a] [p] = isConvertibleTo e a p := by
  simp only [testArguments, List.length, testArgumentsLoop]
  cases isConvertibleTo e a p <;> simp [combine]

theorem test_void (e : Env) (f : Fn) (want : Arg) (args : List Arg) (hw : want.type = e.voidT) :
    f.test e want args = testArguments e args f.args := by
  unfold Fn.test
  rw [C25_void_accepts (e := e) _ _ hw]
  cases testArguments e args f.args <;> rfl

/-- matching without the dynamic case, by type, reference and const -/
theorem convertible_static (e : Env) (ta tp : Ty) (ra rp : RefType) (ca cp : Bool)
    (hnd : ¬ Spec.OneDynamic e ⟨ta, ra, ca⟩ ⟨tp, rp, cp⟩) :
    isConvertibleTo e ⟨ta, ra, ca⟩ ⟨tp, rp, cp⟩ =
      if ta = tp ∧ ra = rp ∧ ca = cp then .exact
      else if e.conv ta tp = true then (if rp ≠ .lvalue then .part else .none)
      else if e.child ta tp = false then .none
      else match rp with
        | .copy => if ra = .rvalue ∨ (ca = cp ∧ ra = .copy) then .exact else .part
        | .lvalue => if cp = true then (if ca = true ∧ ra = .lvalue then .exact else .part)
            else if ca = false ∧ ra = .lvalue then .exact else .none
        | .rvalue => if ra ≠ .rvalue then .none
            else if ca = cp then .exact else if cp = true then .part else .none := by
  rw [oneDynamic_iff] at hnd
  unfold isConvertibleTo
  by_cases h : ta = tp ∧ ra = rp ∧ ca = cp
  · obtain ⟨rfl, rfl, rfl⟩ := h; simp
  · have h' : (⟨ta, ra, ca⟩ : Arg) ≠ ⟨tp, rp, cp⟩ := by simpa using h
    rw [if_neg h', if_neg h, if_neg hnd]
    dsimp only
    cases e.conv ta tp <;> cases e.child ta tp <;> cases ra <;> cases rp <;> cases ca <;> cases cp <;>
      simp [testConstConversion]

theorem not_dynamic_same (e : Env) (t : Ty) (ra rp : RefType) (ca cp : Bool) :
    ¬ Spec.OneDynamic e ⟨t, ra, ca⟩ ⟨t, rp, cp⟩ := by
  rintro (⟨h, h'⟩ | ⟨h, h'⟩)
  · exact h' h
  · exact h h'

theorem not_dynamic (e : Env) (a b : Ty) (ha : a ≠ e.valueT) (hb : b ≠ e.valueT) (ra rp : RefType) (ca cp : Bool) :
    ¬ Spec.OneDynamic e ⟨a, ra, ca⟩ ⟨b, rp, cp⟩ := by
  rintro (⟨h, h'⟩ | ⟨h, h'⟩)
  · exact ha h
  · exact hb h'

/-- C76. `v.push_back(x)` through the reflected vector: a temporary that is not const is moved in, anything
    else of the element's type (or a type derived from it) is copied in; a value that has to be converted is
    converted and moved in; an unrelated value is refused; a const or temporary vector is refused. -/
theorem C76_push_back (e : Env) (l : Lib) (t elem : Ty) (o : Overloads) (want obj x : Arg)
    (ho : o.map (fun f => (f.ret, f.args)) = rows (Spec.vectorTable l t elem) "push_back".toList)
    (hw : want.type = e.voidT) (hobj : obj.type = t) (hself : e.conv t t = false) (hchild : e.child t t = true)
    (hx : x.type ≠ e.valueT) (helem : elem ≠ e.valueT) :
    ∃ copying moving, o = [copying, moving] ∧ copying.args = [t.lref, elem.cref] ∧
      moving.args = [t.lref, elem.rref] ∧
      o.select e want [obj, x] =
        if obj.isConst = true ∨ obj.ref ≠ .lvalue then .error .err
        else if x = elem.cref then .ok copying
        else if x = elem.rref then .ok moving
        else if e.conv x.type elem = true then .ok moving
        else if e.child x.type elem = false then .error .err
        else if x.ref = .rvalue ∧ x.isConst = false then .ok moving
        else .ok copying := by
  have hr : rows (Spec.vectorTable l t elem) "push_back".toList =
      [(l.voidT.val, [t.lref, elem.cref]), (l.voidT.val, [t.lref, elem.rref])] := by
    simp [rows, Spec.vectorTable, List.filter_cons]
  rw [hr] at ho
  obtain ⟨f, g, rfl, hf, hg⟩ := pair_of_map ho
  have hfa : f.args = [t.lref, elem.cref] := congrArg Prod.snd hf
  have hga : g.args = [t.lref, elem.rref] := congrArg Prod.snd hg
  refine ⟨f, g, rfl, hfa, hga, ?_⟩
  rw [select_pair, test_void e f want _ hw, test_void e g want _ hw, hfa, hga, testArguments_pair,
    testArguments_pair]
  have hobj' : isConvertibleTo e obj t.lref =
      if obj.isConst = true ∨ obj.ref ≠ .lvalue then .none else .exact := by
    obtain ⟨ty, r, c⟩ := obj
    have h0 : ty = t := hobj
    subst h0
    rw [Ty.lref, convertible_static e _ _ _ _ _ _ (not_dynamic_same e ty _ _ _ _), hself, hchild]
    cases r <;> cases c <;> simp
  by_cases hb : obj.isConst = true ∨ obj.ref ≠ .lvalue
  · rw [hobj', if_pos hb, if_pos hb]; simp [combine]
  · rw [hobj', if_neg hb, if_neg hb]
    obtain ⟨ty, r, c⟩ := x
    rw [Ty.cref, Ty.rref, convertible_static e _ _ _ _ _ _ (not_dynamic e _ _ hx helem _ _ _ _),
      convertible_static e _ _ _ _ _ _ (not_dynamic e _ _ hx helem _ _ _ _)]
    simp only [Arg.mk.injEq]
    generalize e.conv ty elem = cv
    generalize e.child ty elem = ch
    by_cases hty : ty = elem
    · subst hty
      cases cv <;> cases ch <;> cases r <;> cases c <;> simp [combine]
    · cases cv <;> cases ch <;> cases r <;> cases c <;> simp [combine, hty]

/-- C76. `*p` through a reflected `T*`, for a caller that takes any result: a mutable pointer variable gives
    what the pointer gives in C++; a const pointer, or a temporary one, gives a `const T&`. -/
theorem C76_deref (e : Env) (l : Lib) (t inner : Ty) (k : Bool) (o : Overloads) (want p : Arg)
    (ho : o.map (fun f => (f.ret, f.args)) = rows (Spec.pointerTable l t inner k) "operator*".toList)
    (hw : want.type = e.voidT ∨ want = e.valueT.val) (hp : p.type = t) (hself : e.conv t t = false)
    (hchild : e.child t t = true) (hin : inner ≠ e.voidT) (hval : inner ≠ e.valueT) (hvv : e.valueT ≠ e.voidT) :
    ∃ f, o.select e want [p] = .ok f ∧
      f.ret = ⟨inner, .lvalue, if p.isConst = true ∨ p.ref ≠ .lvalue then true else k⟩ := by
  have hr : rows (Spec.pointerTable l t inner k) "operator*".toList =
      [(⟨inner, .lvalue, k⟩, [t.lref]), (inner.cref, [t.cref])] := by
    simp [rows, Spec.pointerTable, List.filter_cons]
  rw [hr] at ho
  obtain ⟨f, g, rfl, hf, hg⟩ := pair_of_map ho
  have hfa : f.args = [t.lref] := congrArg Prod.snd hf
  have hga : g.args = [t.cref] := congrArg Prod.snd hg
  have hfr : f.ret = ⟨inner, .lvalue, k⟩ := congrArg Prod.fst hf
  have hgr : g.ret = inner.cref := congrArg Prod.fst hg
  have hret : ∀ c, testReturn e want ⟨inner, .lvalue, c⟩ = .exact := by
    intro c
    rcases hw with hw | hw
    · exact C25_void_accepts (e := e) _ _ hw
    · subst hw
      have : isConvertibleTo e ⟨inner, .lvalue, c⟩ e.valueT.val = .exact :=
        convertible_dynamic _ _ _ (.inr ⟨hval, rfl⟩)
      simp [testReturn, this, hvv, hin, Ty.val, Arg.isConstRef]
      simp [Ty.val] at this
      simp [this]
  rw [select_pair]
  simp only [Fn.test, hfa, hga, hfr, hgr, testArguments_single]
  have h2 : testReturn e want inner.cref = .exact := hret true
  rw [hret k, h2]
  obtain ⟨ty, r, c⟩ := p
  have h0 : ty = t := hp
  subst h0
  rw [Ty.lref, Ty.cref, convertible_static e _ _ _ _ _ _ (not_dynamic_same e ty _ _ _ _),
    convertible_static e _ _ _ _ _ _ (not_dynamic_same e ty _ _ _ _), hself, hchild]
  cases r <;> cases c <;> simp [combine, hfr, hgr, Ty.cref]

/-- C76. A caller that wants a mutable `T&` gets it from a mutable pointer variable to mutable objects only:
    a const pointer, a temporary one, and a pointer to const objects are refused. (In C++ a `T* const`
    gives a `T&`.) -/
theorem C76_deref_mutable (e : Env) (l : Lib) (t inner : Ty) (k : Bool) (o : Overloads) (p : Arg)
    (ho : o.map (fun f => (f.ret, f.args)) = rows (Spec.pointerTable l t inner k) "operator*".toList)
    (hp : p.type = t) (hself : e.conv t t = false) (hchild : e.child t t = true)
    (hci : e.conv inner inner = false)
    (hin : inner ≠ e.voidT) :
    (∃ f, o.select e inner.lref [p] = .ok f) ↔ p.ref = .lvalue ∧ p.isConst = false ∧ k = false := by
  have hr : rows (Spec.pointerTable l t inner k) "operator*".toList =
      [(⟨inner, .lvalue, k⟩, [t.lref]), (inner.cref, [t.cref])] := by
    simp [rows, Spec.pointerTable, List.filter_cons]
  rw [hr] at ho
  obtain ⟨f, g, rfl, hf, hg⟩ := pair_of_map ho
  have hfa : f.args = [t.lref] := congrArg Prod.snd hf
  have hga : g.args = [t.cref] := congrArg Prod.snd hg
  have hfr : f.ret = ⟨inner, .lvalue, k⟩ := congrArg Prod.fst hf
  have hgr : g.ret = inner.cref := congrArg Prod.fst hg
  rw [select_pair]
  simp only [Fn.test, hfa, hga, hfr, hgr, testArguments_single]
  have hret : ∀ c, testReturn e inner.lref ⟨inner, .lvalue, c⟩ = if c = true then .none else .exact := by
    intro c
    unfold testReturn
    rw [if_neg (show ¬ inner.lref.type = e.voidT from hin), if_neg (show ¬ inner = e.voidT from hin), Ty.lref,
      convertible_static e _ _ _ _ _ _ (not_dynamic_same e inner _ _ _ _), hci]
    cases c <;> simp [Arg.isTemporary]
  have h2 : testReturn e inner.lref inner.cref = .none := hret true
  rw [hret k, h2]
  obtain ⟨ty, r, c⟩ := p
  have h0 : ty = t := hp
  subst h0
  rw [Ty.lref, Ty.cref, convertible_static e _ _ _ _ _ _ (not_dynamic_same e ty _ _ _ _),
    convertible_static e _ _ _ _ _ _ (not_dynamic_same e ty _ _ _ _), hself, hchild]
  cases k <;> cases r <;> cases c <;> simp [combine]

/-- C76. A type that has an `operator bool()` (pointers and smart pointers do, `C76_pointer`) can be given to a
    `bool` parameter taken by value or as a temporary, never to a `bool&` or `const bool&`. -/
theorem C76_bool_conversion (e : Env) (p : Arg) (boolT : Ty) (hp : p.type ≠ e.valueT) (hb : boolT ≠ e.valueT)
    (hne : p.type ≠ boolT) (hc : e.conv p.type boolT = true) (r : RefType) (c : Bool) :
    isConvertibleTo e p ⟨boolT, r, c⟩ = if r = .lvalue then .none else .part := by
  apply C24_converter
  · intro h; exact hne (by rw [h])
  · simp [Spec.OneDynamic, hp, hb]
  · exact hc

/-- A described type has a function under a name exactly if its table has. -/
theorem offers_get {t' : Noted} {id : Name} {cons assign : List Sig} {table : List (String × Sig)}
    {marks : List (String × Handle)} {ptr : Option (String × Ty)} (h : Offers t' id cons assign table marks ptr)
    (n : Name) (hid : n ≠ id) (ha : n ≠ "operator=".toList) :
    (t'.d.fns.get n).isSome = true ↔ rows table n ≠ [] := by
  have h1 := h.functions n hid ha
  have h2 := h.noEmptySet n
  unfold signatures at h1
  cases hg : t'.d.fns.get n with
  | none => rw [hg] at h1; simp at h1; simp [← h1]
  | some l =>
    rw [hg] at h1 h2
    cases l with
    | nil => exact absurd rfl h2
    | cons f l => simp [← h1]

/-- C76. What a described type converts to: a type for which its table has an `operator X()`, and no other. -/
theorem C76_converts (w : World) (t target : Ty) (t' : Noted) (id : Name) (cons assign : List Sig)
    (table : List (String × Sig)) (marks : List (String × Handle)) (ptr : Option (String × Ty))
    (hoff : Offers t' id cons assign table marks ptr) (ht : w.ty t = t'.d)
    (hid : World.converterName (w.ty target).id ≠ id) :
    w.env.conv t target = true ↔ rows table (World.converterName (w.ty target).id) ≠ [] := by
  have ha : World.converterName (w.ty target).id ≠ "operator=".toList := by
    unfold World.converterName
    intro h
    have := congrArg (fun l => l[8]?) h
    simp at this
  rw [← offers_get hoff _ hid ha]
  show decide (w.hasFunctionF (w.n + 1) t _ = .ok true) = true ↔ _
  rw [decide_eq_true_iff, World.hasFunctionF, ht, hoff.root.1]
  cases (t'.d.fns.get (World.converterName (w.ty target).id)).isSome <;> simp

/-- C76. Pointers and smart pointers convert to `bool`; vectors, maps, numbers and strings do not: their tables
    have no `operator bool()`. -/
theorem C76_bool_tables (l : Lib) (t inner raw key elem keys sum : Ty) (k : Bool) :
    rows (Spec.pointerTable l t inner k) (World.converterName "bool".toList) ≠ [] ∧
    rows (Spec.sharedTable l t inner raw k) (World.converterName "bool".toList) ≠ [] ∧
    rows (Spec.uniqueTable l t inner raw k) (World.converterName "bool".toList) ≠ [] ∧
    rows (Spec.vectorTable l t elem) (World.converterName "bool".toList) = [] ∧
    rows (Spec.mapTable l t key elem keys) (World.converterName "bool".toList) = [] ∧
    rows (Spec.numberTable t raw sum) (World.converterName "bool".toList) = [] ∧
    rows (Spec.stringTable l t raw) (World.converterName "bool".toList) = [] := by
  have h : World.converterName "bool".toList = "operator bool()".toList := by decide +kernel
  rw [h]
  simp [rows, Spec.pointerTable, Spec.sharedTable, Spec.uniqueTable, Spec.smartTable, Spec.vectorTable,
    Spec.mapTable, Spec.numberTable, Spec.stringTable]

/-- C76. A smart pointer is never taken for a raw pointer: the kinds differ. It makes the hypotheses of
    `C76_shared` and `C76_unique` true, whether the raw pointer is described already or not. -/
theorem C76_smart_is_not_raw (w : World) (sp raw inner : Ty) (kind : Name) (hk : kind ≠ "*".toList)
    (hne : sp ≠ raw) (hs : (w.ty sp).ptr = some (kind, inner)) (hp : (w.ty sp).parent = none)
    (hr : (w.ty raw).ptr = none ∨ ∃ q, (w.ty raw).ptr = some ("*".toList, q)) :
    w.env.child sp raw = false := by
  show decide (w.childF (w.n + 1) sp raw = .ok true) = false
  rw [decide_eq_false_iff_not, World.childF, if_neg hne, hs, hp]
  rcases hr with hr | ⟨q, hr⟩
  · rw [hr]; simp
  · rw [hr]; simp only [ne_eq, hk, not_false_iff, if_true]; simp

/-! ### examples -/
namespace StdDemo

/-- `void`, `Value`, `bool`, `size_t`, `int`, `int*`, and a type under description -/
def env : Env := ⟨0, 1, fun a b => a = b, fun a b => a = 5 && b = 2⟩
def void : Handle := ⟨Ty.val 0, 0, none⟩
def lib : Lib := ⟨2, 3, 0, void, fun t n => ⟨Ty.lref 3, t, some n.length⟩⟩

example : ∃ t', (Noted.new "std::vector<int>".toList).runAll env lib.void
    (vectorDesc lib 7 4 regular "std::vector<int>".toList) = (t', .ok ()) ∧
    signatures t' "push_back".toList = [(Ty.val 0, [Ty.lref 7, Ty.cref 4]), (Ty.val 0, [Ty.lref 7, Ty.rref 4])] ∧
    t'.own.get "list".toList = some void ∧ t'.own.get "pointer".toList = none := by
  obtain ⟨t', h1, h2⟩ := C76_vector env lib 7 4 regular "std::vector<int>".toList (by decide)
    (by decide +kernel)
  refine ⟨t', h1, ?_, ?_, ?_⟩
  · rw [h2.functions _ (by decide) (by decide)]; decide +kernel
  · rw [h2.traits]; exact ⟨("list", void), by decide +kernel, rfl, rfl⟩
  · cases h : t'.own.get "pointer".toList with
    | none => rfl
    | some v =>
      obtain ⟨m, hm, h3, _⟩ := (h2.traits _ _).1 h
      have : ∀ m ∈ Spec.vectorTraits lib 7, m.1.toList ≠ "pointer".toList := by decide +kernel
      exact absurd h3 (this m hm)

example : ∃ t', (Noted.new "int*".toList).runAll env lib.void
    (pointerDesc lib 5 4 false "int*".toList) = (t', .ok ()) ∧ t'.d.ptr = some ("*".toList, 4) := by
  obtain ⟨t', h1, h2⟩ := C76_pointer env lib 5 4 false "int*".toList (by decide) (by decide +kernel)
  exact ⟨t', h1, h2.pointer⟩

example : ∃ t', (Noted.new "std::map<int,bool>".toList).runAll env lib.void
    (mapDesc lib 7 4 2 8 regular "std::map<int,bool>".toList) = (t', .ok ()) ∧
    signatures t' "at".toList = [(Ty.cref 2, [Ty.cref 7, Ty.cref 4])] := by
  obtain ⟨t', h1, h2⟩ := C76_map env lib 7 4 2 8 regular "std::map<int,bool>".toList (by decide)
    (by decide +kernel)
  exact ⟨t', h1, by rw [h2.functions _ (by decide) (by decide)]; decide +kernel⟩

example : ∃ t', (Noted.new "int".toList).runAll env lib.void
    (numberDesc lib 4 5 4 (.integer true) "int".toList) = (t', .ok ()) ∧
    t'.own.get "signed".toList = some void := by
  obtain ⟨t', h1, h2⟩ := C76_number env lib 4 5 4 (.integer true) "int".toList (by decide) (by decide +kernel)
  exact ⟨t', h1, (h2.traits _ _).2 ⟨("signed", void), by decide +kernel, rfl, rfl⟩⟩

example : ∃ t', (Noted.new "std::string".toList).runAll env lib.void
    (stringDesc lib 7 8 "std::string".toList) = (t', .ok ()) ∧
    signatures t' "std::string".toList = [(Ty.val 7, []), (Ty.val 7, [Ty.cref 7]), (Ty.val 7, [Ty.rref 7])] := by
  obtain ⟨t', h1, h2⟩ := C76_string env lib 7 8 "std::string".toList (by decide) (by decide +kernel)
  exact ⟨t', h1, h2.construct⟩

example : ∃ t', (Noted.new "std::shared_ptr<int>".toList).runAll env lib.void
    (sharedDesc lib 7 4 5 false "std::shared_ptr<int>".toList) = (t', .ok ()) ∧
    t'.d.ptr = some ("std::shared_ptr".toList, 4) := by
  obtain ⟨t', h1, h2⟩ := C76_shared env lib 7 4 5 false "std::shared_ptr<int>".toList (by decide)
    (by decide +kernel) (by decide) (by decide) (by decide) (by decide)
  exact ⟨t', h1, h2.pointer⟩

example : ∃ t', (Noted.new "std::unique_ptr<int>".toList).runAll env lib.void
    (uniqueDesc lib 7 4 5 false "std::unique_ptr<int>".toList) = (t', .ok ()) ∧
    signatures t' "operator=".toList = [(Ty.lref 7, [Ty.lref 7, Ty.rref 7])] := by
  obtain ⟨t', h1, h2⟩ := C76_unique env lib 7 4 5 false "std::unique_ptr<int>".toList (by decide)
    (by decide +kernel) (by decide) (by decide) (by decide) (by decide)
  exact ⟨t', h1, h2.assigned⟩

def pushes : Overloads :=
  [Fn.make "push_back".toList (Ty.val 0) [Ty.lref 7, Ty.cref 4] 8,
   Fn.make "push_back".toList (Ty.val 0) [Ty.lref 7, Ty.rref 4] 9]

/-- an `int` variable is copied in, a temporary moved in -/
example : (pushes.select env (Ty.val 0) [Ty.lref 7, Ty.lref 4]).map Fn.body = .ok 8 ∧
    (pushes.select env (Ty.val 0) [Ty.lref 7, Ty.rref 4]).map Fn.body = .ok 9 ∧
    pushes.select env (Ty.val 0) [Ty.cref 7, Ty.rref 4] = .error .err := by
  have ho : pushes.map (fun f => (f.ret, f.args)) = rows (Spec.vectorTable lib 7 4) "push_back".toList := by
    decide +kernel
  refine ⟨?_, ?_, ?_⟩
  · obtain ⟨f, g, h1, _, _, h2⟩ := C76_push_back env lib 7 4 pushes (Ty.val 0) (Ty.lref 7) (Ty.lref 4) ho rfl rfl
      (by decide) (by decide) (by decide) (by decide)
    cases h1
    rw [h2]; rfl
  · obtain ⟨f, g, h1, _, _, h2⟩ := C76_push_back env lib 7 4 pushes (Ty.val 0) (Ty.lref 7) (Ty.rref 4) ho rfl rfl
      (by decide) (by decide) (by decide) (by decide)
    cases h1
    rw [h2]; rfl
  · obtain ⟨f, g, h1, _, _, h2⟩ := C76_push_back env lib 7 4 pushes (Ty.val 0) (Ty.cref 7) (Ty.rref 4) ho rfl rfl
      (by decide) (by decide) (by decide) (by decide)
    rw [h2]; rfl

def derefs : Overloads :=
  [Fn.make "operator*".toList (Ty.lref 4) [Ty.lref 5] 6, Fn.make "operator*".toList (Ty.cref 4) [Ty.cref 5] 7]

example : (∃ f, derefs.select env (Ty.lref 4) [Ty.lref 5] = .ok f) ∧
    ¬ (∃ f, derefs.select env (Ty.lref 4) [Ty.cref 5] = .ok f) ∧
    (∃ f, derefs.select env (Ty.val 1) [Ty.rref 5] = .ok f ∧ f.ret = Ty.cref 4) := by
  have ho : derefs.map (fun f => (f.ret, f.args)) = rows (Spec.pointerTable lib 5 4 false) "operator*".toList := by
    decide +kernel
  refine ⟨?_, ?_, ?_⟩
  · rw [C76_deref_mutable env lib 5 4 false derefs _ ho rfl (by decide) (by decide) (by decide) (by decide)]
    decide
  · rw [C76_deref_mutable env lib 5 4 false derefs _ ho rfl (by decide) (by decide) (by decide) (by decide)]
    decide
  · exact C76_deref env lib 5 4 false derefs (Ty.val 1) (Ty.rref 5) ho (.inr rfl) rfl (by decide) (by decide)
      (by decide) (by decide) (by decide)

example : isConvertibleTo env (Ty.lref 5) (Ty.val 2) = .part ∧ isConvertibleTo env (Ty.lref 5) (Ty.cref 2) = .none :=
  ⟨C76_bool_conversion env (Ty.lref 5) 2 (by decide) (by decide) (by decide) (by decide) .copy false,
   C76_bool_conversion env (Ty.lref 5) 2 (by decide) (by decide) (by decide) (by decide) .lvalue true⟩

/-- a world with `int` (4), `int*` (5) and `std::shared_ptr<int>` (7) -/
def world : World :=
  { n := 8, voidT := 0, valueT := 1,
    ty := fun t =>
      if t = 5 then ((Noted.new "int*".toList).runAll env lib.void (pointerDesc lib 5 4 false "int*".toList)).1.d
      else if t = 7 then { TypeD.new "std::shared_ptr<int>".toList with ptr := some ("std::shared_ptr".toList, 4) }
      else if t = 2 then TypeD.new "bool".toList
      else TypeD.new "int".toList }

example : world.env.child 7 5 = false :=
  C76_smart_is_not_raw world 7 5 4 "std::shared_ptr".toList (by decide) (by decide) rfl rfl (.inr ⟨4, by decide +kernel⟩)

example : world.env.conv 5 2 = true ∧ world.env.conv 5 4 = false := by
  obtain ⟨t', h1, h2⟩ := C76_pointer env lib 5 4 false "int*".toList (by decide) (by decide +kernel)
  have ht : world.ty 5 = t'.d := by
    show ((Noted.new "int*".toList).runAll env lib.void (pointerDesc lib 5 4 false "int*".toList)).1.d = _
    rw [h1]
  constructor
  · rw [C76_converts world 5 2 t' _ _ _ _ _ _ h2 ht (by decide +kernel)]; decide +kernel
  · rw [← Bool.not_eq_true, C76_converts world 5 4 t' _ _ _ _ _ _ h2 ht (by decide +kernel)]; decide +kernel

end StdDemo

end Reflect
