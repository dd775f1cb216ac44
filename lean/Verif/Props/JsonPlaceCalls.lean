import Verif.Lemmas.Json.Place
import Verif.Lemmas.Json.PlaceSim
import Verif.Lemmas.Json.Trip
import Verif.Lemmas.Json.LoadParse
import Verif.Props.Vector
import Verif.Props.MapFns
import Verif.Props.Callable
import Verif.Props.SmartPtr
import Verif.Props.Alloc
import Verif.Props.Calls
import Verif.Lemmas.Json.PlacePtr
/-
  Property C88, the calls: what is assumed of the reflected types, and what the calls that the parsers make do to the
  values in memory.
-/
namespace Reflect.Json

/-! ### What is assumed of the reflected types -/

/-- the type has a move constructor -/
structure Movable (p : Prog) (t : Ty) : Prop where
  movable : p.w.isMovable t = true
  caps : (p.caps t).moveConstructible = true
  notValue : t ≠ p.w.valueT
  distinct : p.w.valueT ≠ p.w.voidT
  noConverter : p.w.env.conv t t = false

/-- the type has a move constructor and a move assignment, which moves the contents of the cells -/
structure Moves (p : Prog) (t : Ty) : Prop extends Movable p t where
  assign : ∃ copy, Assignable p t t copy true

/-- `ty` is a scalar type for the parser that assigns values of type `nat`: it is `nat` itself, or neither derives from it nor
can be converted to it (`TyD.exact` tells). `ok` says which numbers `nat` has. -/
structure ScalarOf {α : Type} (p : Prog) (L : Layout) (nat ty : Ty) (d : TyD) (f : α → JV) (ok : α → Prop) (cs : α → Nat → Nat) : Prop where
  moves : Moves p ty
  notValue : nat ≠ p.w.valueT
  form : ∃ cells, L ty = .scalar cells ∧ (d.exact = true → ty = nat ∧ ∀ x, ok x → cells (f x) = some (cs x))
  other : d.exact = false → p.w.env.child nat ty = false ∧ p.w.env.conv nat ty = false

/-- `type->construct()` makes the value that the description of the type says, or the type has no constructor without
parameters. -/
def Constructs (p : Prog) (N : Native) (L : Layout) (d : TyD) (t : Ty) : Prop :=
  match d.make with
  | none => p.w.functionF p.w.fuel t (p.w.ty t).id = .error .err ∨
      ∃ o, p.w.functionF p.w.fuel t (p.w.ty t).id = .ok o ∧ ∀ f ∈ o, f.args ≠ []
  | some v => t ≠ p.w.voidT ∧ ∃ (o : Overloads) (f : Fn) (init : Nat → Nat), p.w.functionF p.w.fuel t (p.w.ty t).id = .ok o ∧ f ∈ o ∧
      f.args = [] ∧ f.ret = t.val ∧ (∀ g ∈ o, g.args = [] → g = f) ∧
      (∀ hp, p.impl f.body hp [] = .ok ((hp.newObj init (p.size t)).1, .obj (hp.newObj init (p.size t)).2)) ∧
      ∀ (h : Heap) a, h.Ok a (p.size t) → (∀ j < p.size t, h.mem (a + j) = init j) → Rep p N L h t a v fun _ => False

/-- the type of the elements of a vector or of the values of a map -/
structure Element (p : Prog) (N : Native) (L : Layout) (env : Env) (t : Ty) : Prop where
  moves : Movable p t
  constructs : ∀ d, env.types[t]? = some d → Constructs p N L d t

/-- `operator*` of plain pointers, as pointer.h reflects it -/
def Derefs (p : Prog) (raw t : Ty) : Prop :=
  ∃ (l : Lib) (o : Overloads), p.w.functionF p.w.fuel raw "operator*".toList = .ok o ∧
    o.map (fun f => (f.ret, f.args)) = Spec.rows (Spec.pointerTable l raw t false) "operator*".toList ∧
    ∀ f ∈ o, ∀ hp a m, p.impl f.body hp [.obj a m] = derefBody hp a

/-- `type->alloc()` makes the value that the description of the type says, or the type has no `new` without parameters. -/
def Allocs (p : Prog) (N : Native) (L : Layout) (d : TyD) (t raw : Ty) : Prop :=
  match (if d.alloc then d.make else none) with
  | none => p.w.functionF p.w.fuel t "new".toList = .error .err ∨
      ∃ o, p.w.functionF p.w.fuel t "new".toList = .ok o ∧ ∀ f ∈ o, f.args ≠ []
  | some v => ∃ init copy move, Allocates p t t raw init true copy move ∧
      ∀ (h : Heap) a, h.Ok a (p.size t) → (∀ j < p.size t, h.mem (a + j) = init j) → Rep p N L h t a v fun _ => False

/-- `ty` is a smart pointer to `t`, of `n` cells; `raw` is `t*` -/
structure Points (p : Prog) (N : Native) (L : Layout) (env : Env) (smart : Ty → Bool) (ty t : Ty) (n : Nat) (raw : Ty) : Prop where
  smart : smart ty = true
  form : L ty = .ptr t n
  kind : (n = 1 ∧ ReflectedUnique p ty ty t raw N.boolT false) ∨ (n = 2 ∧ ReflectedShared p ty ty t raw N.boolT false)
  boolName : (p.w.ty N.boolT).id = "bool".toList
  toBool : p.w.env.conv ty N.boolT = true ∧ p.w.env.child ty N.boolT = false
  deref : Derefs p raw t
  notVoid : t ≠ p.w.voidT
  allocs : ∀ d, env.types[t]? = some d → Allocs p N L d t raw

/-- The reflected program has the types `T` as `env` describes them. The pointers among them are smart pointers. -/
structure Backed (p : Prog) (N : Native) (L : Layout) (env : Env) (smart : Ty → Bool) (T : TyId → Prop) : Prop where
  sound : L.Sound p N
  notVoid : ∀ ty d, T ty → ¬ env.Has ty d .void
  ptr : ∀ ty d t, T ty → env.Has ty d (.ptr t) → ∃ n raw, Points p N L env smart ty t n raw
  bool : ∀ ty d, T ty → env.Has ty d .bool → ScalarOf p L N.boolT ty d JV.bool (fun _ => True) N.bool
  int : ∀ ty d, T ty → env.Has ty d .int → ScalarOf p L N.intT ty d JV.int (fun i => -(2 ^ 63 : Int) ≤ i ∧ i < 2 ^ 63) N.int
  float : ∀ ty d, T ty → env.Has ty d .float → ScalarOf p L N.floatT ty d JV.flt (fun _ => True) N.flt
  string : ∀ ty d, T ty → env.Has ty d .string → ScalarOf p L N.stringT ty d JV.str (fun _ => True) N.str
  list : ∀ ty d t, T ty → env.Has ty d (.list t) → L ty = .list t ∧ Element p N L env t ∧
    ∃ sizeT grow init, ReflectedVector p ty ty t sizeT grow init
  map : ∀ ty d t, T ty → env.Has ty d (.map t) → ∃ K, L ty = .map t K ∧ Element p N L env t ∧
    (Moves p t ∨ ∃ e n raw, Points p N L env smart t e n raw ∧ ∀ j, K.init j = 0) ∧ ∃ keysT sizeT, ReflectedMap p ty ty N.stringT t keysT sizeT K
  object : ∀ ty d, T ty → env.Has ty d .object → ∃ field, L ty = .obj field ∧
    ∀ f ∈ d.fields, f.key ≠ none → ∃ fd : Reflect.FieldD, field f.name = some (f.type, fd.offset) ∧
      p.w.fieldF p.w.fuel ty (nameOf f.name) = .ok fd ∧ fd.arg.type = f.type ∧ fd.arg.isConst = false

/-! ### The calls -/

section
variable {p : Prog} {N : Native} {L : Layout} {env : Env} {T : TyId → Prop}

/-- assigning a temporary -/
theorem assignNew_spec (hL : L.Sound p N) {ty : Ty} (hm : Moves p ty) {cells : JV → Option (Nat → Nat)} (hl : L ty = .scalar cells)
    (fuel : Nat) (hp : Heap) (o : Handle) (ho : o.arg = ty.lref) {v : JV} {O : Nat → Prop} (hr : Rep p N L hp ty o.addr v O)
    {v' : JV} {cs : Nat → Nat} (hv : cells v' = some cs) :
    ∃ hp' O', assignNew p (fuel + 1) hp o ty cs = .ok hp' ∧ Become p N L hp hp' ty o.addr O v' O' := by
  obtain ⟨⟨o1, o2⟩, -⟩ := hr.own hL
  obtain ⟨copy, hA⟩ := hm.assign
  have q0 : (hp.newObj cs (p.size ty)).2 = hp.next := rfl
  have q1 : (hp.newObj cs (p.size ty)).1.next = hp.next + p.size ty + 1 := rfl
  obtain ⟨hp', e1, e2, e3, -, e4⟩ := C71_move p fuel (hp.newObj cs (p.size ty)).1 o ty ty hp.next copy (by rw [ho]; exact hA)
    (by rw [ho]; exact ⟨rfl, rfl⟩) ⟨o1, by omega⟩ ⟨by omega, by omega⟩ (Nat.le_refl _) hA.notValue hA.derives hA.noConverter hm.caps hm.caps hm.movable
  refine ⟨hp', fun _ => False, e1, .scalar ty o.addr v' cells cs _ hl hv ⟨o1, by omega⟩ (fun j hj => ?_) (fun _ h => h), fun y hy h1 _ => ?_,
    fun _ _ h => h.elim, by omega⟩
  · rw [e2 j hj, newObj_new _ _ _ _ hj]
  · unfold OwnCell at h1
    rw [e3 y (by omega) (by omega) (by omega), newObj_old _ _ _ _ hy]

/-! ### Moving a value into the place of another -/

/-- the cells about the object that the smart pointer at `q` lets go of -/
def LetsGo (L : Layout) (h : Heap) (t : Ty) (q y : Nat) : Prop :=
  ∃ e n, L t = .ptr e n ∧ (h.mem q ≠ 0 ∨ (n = 2 ∧ h.mem (q + 1) ≠ 0)) ∧ Heap.Keeps h n q y

theorem delete_other {h : Heap} {a y : Nat} (hy : a = 0 ∨ y + 1 ≠ a) : (h.delete a).mem y = h.mem y := by
  unfold Heap.delete
  split
  · rfl
  · show (if y = a - 1 then _ else _) = _
    rw [if_neg (by omega)]

theorem delete_next {h : Heap} {a : Nat} : (h.delete a).next = h.next := by
  unfold Heap.delete; split <;> rfl

theorem drop_other {h : Heap} {a c y : Nat} (hy : c = 0 ∨ (y ≠ c ∧ (a = 0 ∨ y + 1 ≠ a))) : (h.drop a c).mem y = h.mem y := by
  unfold Heap.drop
  split
  · rfl
  · rcases hy with hy | ⟨hy, hy'⟩
    · contradiction
    · split
      · rw [delete_other hy']
        show (if y = c then _ else _) = _
        rw [if_neg hy]
      · show (if y = c then _ else _) = _
        rw [if_neg hy]

theorem drop_next {h : Heap} {a c : Nat} : (h.drop a c).next = h.next := by
  unfold Heap.drop
  split
  · rfl
  · split
    · rw [delete_next]; rfl
    · rfl

theorem poke_other {h : Heap} {a x y : Nat} (hy : y ≠ a) : (h.poke a x).mem y = h.mem y := by
  show (if y = a then _ else _) = _
  rw [if_neg hy]

theorem poke_at {h : Heap} {a x : Nat} : (h.poke a x).mem a = x := by
  show (if a = a then _ else _) = _
  rw [if_pos rfl]

/-- moving a smart pointer into another -/
theorem pointer_moved (hL : L.Sound p N) {smart : Ty → Bool} {t e : Ty} {n : Nat} {raw : Ty} (hP : Points p N L env smart t e n raw) (fuel : Nat) (h : Heap)
    (q r : Handle) (hq : q.arg = t.lref) (hr : r.arg = t.lref) (hokq : h.Ok q.addr (p.size t)) (hokr : h.Ok r.addr (p.size t))
    (hap : r.addr + p.size t ≤ q.addr ∨ q.addr + p.size t ≤ r.addr) (hG : ∀ y, LetsGo L h t q.addr y → ¬ OwnCell p t q.addr y) :
    ∃ h', p.assign (fuel + 1) h q (.dyn r.rvalue) = .ok h' ∧ (∀ i < p.size t, h'.mem (q.addr + i) = h.mem (r.addr + i)) ∧
      (∀ y < h.next, ¬ OwnCell p t q.addr y → ¬ OwnCell p t r.addr y → ¬ LetsGo L h t q.addr y → h'.mem y = h.mem y) ∧ h.next ≤ h'.next := by
  obtain ⟨s1, s2⟩ := hL.ptr t e n hP.form
  rw [s1] at hokq hokr hap ⊢
  unfold OwnCell at hG ⊢
  rw [s1] at hG ⊢
  have hlg : ∀ y, LetsGo L h t q.addr y ↔ (h.mem q.addr ≠ 0 ∨ (n = 2 ∧ h.mem (q.addr + 1) ≠ 0)) ∧ Heap.Keeps h n q.addr y := by
    intro y
    constructor
    · rintro ⟨e', n', z1, z2⟩
      rw [hP.form] at z1; cases z1
      exact z2
    · intro z
      exact ⟨e, n, hP.form, z⟩
  simp only [hlg] at hG ⊢
  have o1 := hokq.1; have o2 := hokq.2; have o3 := hokr.1; have o4 := hokr.2
  rcases hP.kind with ⟨rfl, V⟩ | ⟨rfl, V⟩
  · obtain ⟨f, k1, k2, k3, k4⟩ := V.assign
    obtain ⟨h1, d1, d2, d3, d4, d5, d6⟩ := assign_moved V.toReflectedPtr fuel h q r hq hr hokr f [f] k1 k2 k3
      (fun he => by rw [select_single, if_neg (by rw [he]; simp)])
    have hok : h1.Ok q.addr 1 := ⟨o1, by omega⟩
    have e0 := d3 0 (by omega)
    simp only [Nat.add_zero] at e0
    have e1 := d5 q.addr (by omega) (by omega)
    have hne : q.addr ≠ h.next := by omega
    have e2 : (h1.poke h.next 0).mem q.addr = h.mem q.addr := by rw [poke_other hne, e1]
    refine ⟨_, d6 _ (by rw [k4, uniMoveAssign, if_pos ⟨hok, d2⟩, e0]), ?_, ?_, ?_⟩
    · intro i hi
      have : i = 0 := by omega
      subst this
      simp only [Heap.uniSet, e2, Nat.add_zero]
      rw [delete_other, poke_at]
      by_cases c : h.mem q.addr = 0
      · exact Or.inl c
      · right
        intro z
        exact hG q.addr ⟨Or.inl c, Or.inl z⟩ (by omega)
    · intro y hy q1 q2 q3
      simp only [Heap.uniSet, e2]
      rw [delete_other, poke_other (by omega), poke_other (by omega), d5 y hy (by omega)]
      by_cases c : h.mem q.addr = 0
      · exact Or.inl c
      · exact Or.inr fun z => q3 ⟨Or.inl c, Or.inl z⟩
    · simp only [Heap.uniSet, delete_next]
      exact Nat.le_of_lt d1
  · obtain ⟨f, g, k1, k2, k3, k4, k5, k6, k7⟩ := V.assign
    have tf : f.test p.w.env p.voidArg [t.lref, ⟨t, .rvalue, false⟩] = .part := by
      rw [test_second V.toReflectedPtr f _ t.cref k2, Ty.cref,
        match_constref p.w.env t t .rvalue false V.notValue.1 V.notValue.2.1 V.noConverter V.derives, if_neg (by simp)]
    obtain ⟨h1, d1, d2, d3, d4, d5, d6⟩ := assign_moved V.toReflectedPtr fuel h q r hq hr hokr g [f, g] k1 k4 k5
      (fun he => select_move p.w.env _ _ f g true (by rw [he]; simp) (Or.inr (Or.inr ⟨he, by rw [tf]; simp⟩)))
    have hok : h1.Ok q.addr 2 := ⟨o1, by omega⟩
    have e0 := d3 0 (by omega)
    have e1 := d3 1 (by omega)
    simp only [Nat.add_zero] at e0
    have u0 : ((h1.poke h.next 0).poke (h.next + 1) 0).mem q.addr = h.mem q.addr := by
      rw [poke_other (by omega), poke_other (by omega), d5 q.addr (by omega) (by omega)]
    have u1 : ((h1.poke h.next 0).poke (h.next + 1) 0).mem (q.addr + 1) = h.mem (q.addr + 1) := by
      rw [poke_other (by omega), poke_other (by omega), d5 (q.addr + 1) (by omega) (by omega)]
    have hoth : ∀ y, ¬ ((h.mem q.addr ≠ 0 ∨ (2 = 2 ∧ h.mem (q.addr + 1) ≠ 0)) ∧ Heap.Keeps h 2 q.addr y) →
        h.mem (q.addr + 1) = 0 ∨ (y ≠ h.mem (q.addr + 1) ∧ (h.mem q.addr = 0 ∨ y + 1 ≠ h.mem q.addr)) := by
      intro y hy
      by_cases c : h.mem (q.addr + 1) = 0
      · exact Or.inl c
      · exact Or.inr ⟨fun z => hy ⟨Or.inr ⟨rfl, c⟩, Or.inr ⟨rfl, z⟩⟩, Or.inr fun z => hy ⟨Or.inr ⟨rfl, c⟩, Or.inl z⟩⟩
    refine ⟨_, d6 _ (by rw [k7, shMoveAssign, if_pos ⟨hok, d2⟩, e0, e1]), ?_, ?_, ?_⟩
    · intro i hi
      simp only [Heap.shSwap, u0, u1]
      rw [drop_other (hoth _ (fun z => hG _ z (by omega)))]
      rcases (show i = 0 ∨ i = 1 by omega) with rfl | rfl
      · rw [poke_other (by omega)]; exact poke_at
      · rw [poke_at]
    · intro y hy q1 q2 q3
      simp only [Heap.shSwap, u0, u1]
      rw [drop_other (hoth _ q3), poke_other (by omega), poke_other (by omega), poke_other (by omega), poke_other (by omega), d5 y hy (by omega)]
    · simp only [Heap.shSwap, drop_next]
      exact Nat.le_of_lt d1

/-- moving a value of a type that can be the value of a map -/
theorem value_moved (hL : L.Sound p N) {smart : Ty → Bool} {t : Ty} (hm : Movable p t) (hP : Moves p t ∨ ∃ e n raw, Points p N L env smart t e n raw)
    (fuel : Nat) (h : Heap)
    (q r : Handle) (hq : q.arg = t.lref) (hr : r.arg = t.lref) (hokq : h.Ok q.addr (p.size t)) (hokr : h.Ok r.addr (p.size t))
    (hap : r.addr + p.size t ≤ q.addr ∨ q.addr + p.size t ≤ r.addr) (hG : ∀ y, ¬ Moves p t ∧ LetsGo L h t q.addr y → ¬ OwnCell p t q.addr y) :
    ∃ h', p.assign (fuel + 1) h q (.dyn r.rvalue) = .ok h' ∧ (∀ i < p.size t, h'.mem (q.addr + i) = h.mem (r.addr + i)) ∧
      (∀ y < h.next, ¬ OwnCell p t q.addr y → ¬ OwnCell p t r.addr y → ¬ (¬ Moves p t ∧ LetsGo L h t q.addr y) → h'.mem y = h.mem y) ∧ h.next ≤ h'.next := by
  by_cases lm : Moves p t
  · obtain ⟨copy, hA⟩ := lm.assign
    obtain ⟨h4, d1, d2, d3, d4⟩ := C71_move_value p fuel h q r.rvalue t copy (by rw [hq]; exact hA) (by rw [hq]; exact ⟨rfl, rfl⟩) hokq hokr
      ⟨by rw [show r.rvalue.arg.type = r.arg.type from rfl, hr]; exact hA.notValue,
        by rw [show r.rvalue.arg.type = r.arg.type from rfl, hr]; exact hA.derives,
        by rw [show r.rvalue.arg.type = r.arg.type from rfl, hr]; exact hA.noConverter,
        rfl, by show r.arg.isConst = false; rw [hr]; rfl⟩ hm.caps hm.movable hap
    refine ⟨h4, d1, fun i hi => (d2 i hi).1, fun y z1 z2 z3 _ => d3 y z1 (by unfold OwnCell at z2; omega) (by
      show y < r.addr ∨ r.addr + p.size t ≤ y
      unfold OwnCell at z3; omega), d4⟩
  · obtain ⟨e, n, raw, hP⟩ := hP.resolve_left lm
    obtain ⟨h4, d1, d2, d3, d4⟩ := pointer_moved hL hP fuel h q r hq hr hokq hokr hap (fun y hy => hG y ⟨lm, hy⟩)
    exact ⟨h4, d1, d2, fun y z1 z2 z3 z4 => d3 y z1 z2 z3 fun c => z4 ⟨lm, c⟩, d4⟩

/-- a function of a type that no overload without parameters answers -/
theorem typeCall_refused (p : Prog) (t : Ty) (name : Name) (o : Overloads) (ho : p.w.functionF p.w.fuel t name = .ok o)
    (h : ∀ f ∈ o, f.args ≠ []) (fuel : Nat) (hp : Heap) : p.typeCall fuel hp t name p.valueArg [] = .error .err := by
  have h2 : ∀ f ∈ o, f.test p.w.env p.valueArg [] = .none := fun f hf =>
    test_arity _ _ _ _ (by have := h f hf; intro c; exact this (List.eq_nil_of_length_eq_zero (by simpa using c.symm)))
  have hsel : o.select p.w.env p.valueArg [] = .error .err := by
    rw [C27_select]
    unfold Spec.choose
    have e : ∀ m : Match, m ≠ .none → (o.filter fun f => f.test p.w.env p.valueArg [] = m) = [] := by
      intro m hm
      rw [List.filter_eq_nil_iff]
      intro f hf
      rw [h2 f hf]
      simpa using Ne.symm hm
    simp [e]
  unfold Prog.typeCall Prog.callOv
  rw [ho]
  simp [hsel]

/-- `type->construct()` -/
theorem make_spec {t : Ty} {d : TyD} (hm : Movable p t) (hc : Constructs p N L d t) (fuel : Nat) (hp : Heap) (hpos : 0 < hp.next) :
    match d.make with
    | none => make p (fuel + 1) hp t = .error .err
    | some v => ∃ hp' o, make p (fuel + 1) hp t = .ok (hp', o) ∧ o.arg = t.lref ∧ hp.next ≤ o.addr ∧ Ext hp hp' ∧
        Rep p N L hp' t o.addr v fun _ => False := by
  unfold Constructs at hc
  cases hd : d.make with
  | none =>
    rw [hd] at hc
    simp only at hc ⊢
    rcases hc with hc | ⟨o, h1, h2⟩
    · unfold make Prog.typeCall
      rw [hc]
    · unfold make
      rw [typeCall_refused p t _ o h1 h2]
  | some v =>
    rw [hd] at hc
    simp only at hc ⊢
    obtain ⟨hv, o, f, init, h1, h2, h3, h4, h5, h6, h7⟩ := hc
    have ht : f.test p.w.env p.valueArg [] = .exact := by
      unfold Fn.test
      rw [h4, ret_value p t hv hm.notValue hm.distinct, h3]; rfl
    have hsel : o.select p.w.env p.valueArg [] = .ok f := by
      rw [C27_select]
      unfold Spec.choose
      have hin : f ∈ o.filter fun g => g.test p.w.env p.valueArg [] = .exact := by simp [h2, ht]
      cases hl : o.filter fun g => g.test p.w.env p.valueArg [] = .exact with
      | nil => rw [hl] at hin; cases hin
      | cons g gs =>
        have hg : g ∈ o.filter fun g => g.test p.w.env p.valueArg [] = .exact := by rw [hl]; exact List.mem_cons_self
        simp only [List.mem_filter, decide_eq_true_eq] at hg
        have hga : g.args = [] := by
          refine Classical.byContradiction fun hc => ?_
          rw [test_arity p.w.env g p.valueArg [] (by intro c; exact hc (List.eq_nil_of_length_eq_zero c.symm))] at hg
          cases hg.2
        simp only [h5 g hg.1 hga]
    have q1 : (hp.newObj init (p.size t)).1.next = hp.next + p.size t + 1 := rfl
    obtain ⟨hp', u, w1, w2, -⟩ := C67_temporary_stored p (hp.newObj init (p.size t)).1 t.val hp.next (by simp [Ty.val])
      (Or.inr ⟨rfl, hm.caps⟩) ⟨hpos, by show hp.next + p.size t ≤ _; omega⟩
    refine ⟨hp', u, ?_, w2.arg, ?_, ⟨fun y hy => ?_, ?_⟩, ?_⟩
    · unfold make
      rw [typeCall_of_select p _ hp t _ [] o f h1 hm.distinct hsel (by show f.test p.w.env p.valueArg [] ≠ .none; rw [ht]; simp) hp hp' [] u rfl ?_]
      simp only [Prog.run, h3, Prog.bind, h6, h4, Prog.wrapRet]
      exact w1
    · have := w2.fresh
      omega
    · rw [w2.frame y (by omega) (by simp only [Ty.val]; omega), newObj_old _ _ _ _ hy]
    · have := w2.grow
      omega
    · refine h7 hp' u.addr w2.live fun j hj => ?_
      rw [w2.same j hj, newObj_new _ _ _ _ hj]

/-- the parsers of scalars -/
theorem scalar_spec {α : Type} {nat ty : Ty} {d : TyD} {f : α → JV} {ok : α → Prop} {cs : α → Nat → Nat} (hL : L.Sound p N) (hS : ScalarOf p L nat ty d f ok cs)
    {sh : Shape} (hd : env.Has ty d sh) (fuel : Nat) (hp : Heap) (o : Handle) (ho : o.arg = ty.lref) {v : JV} {O : Nat → Prop}
    (hr : Rep p N L hp ty o.addr v O) (x : α) (hk : ok x) :
    if env.exact ty then ∃ hp' O', assignNew p (fuel + 1) hp o nat (cs x) = .ok hp' ∧ Become p N L hp hp' ty o.addr O (f x) O'
    else assignNew p (fuel + 1) hp o nat (cs x) = .error .err := by
  have he : env.exact ty = d.exact := by unfold Env.exact; rw [hd.1]
  obtain ⟨cells, h1, h2⟩ := hS.form
  obtain ⟨copy, hA⟩ := hS.moves.assign
  rw [he]
  cases hx : d.exact with
  | true =>
    obtain ⟨h3, h4⟩ := h2 hx
    subst h3
    simp only [if_true]
    exact assignNew_spec hL hS.moves h1 fuel hp o ho hr (h4 x hk)
  | false =>
    obtain ⟨h3, h4⟩ := hS.other hx
    simp only [Bool.false_eq_true, if_false]
    unfold assignNew
    exact C71_unrelated p (fuel + 1) _ o _ ty copy true (by rw [ho]; exact hA) hS.notValue h3 h4

/-- what `parseInt` gives is an `int64_t` -/
theorem parseInt_range {r r' : Reader} {i : Int} (h : parseInt r = .ok (i, r')) : -(2 ^ 63 : Int) ≤ i ∧ i < 2 ^ 63 := by
  have hs : ∀ s j, stol s = .ok j → -(2 ^ 63 : Int) ≤ j ∧ j < 2 ^ 63 := by
    intro s j hj
    unfold stol at hj
    simp only at hj
    generalize (if s.head? = some 45 then s.tail else s) = ds at hj
    by_cases hd : ds = []
    · rw [if_pos hd] at hj; cases hj
    · rw [if_neg hd] at hj
      generalize (if s.head? = some 45 then -(((ds.foldl (fun a d => a * 10 + (d.toNat - 48)) 0 : Nat)) : Int)
        else ((ds.foldl (fun a d => a * 10 + (d.toNat - 48)) 0 : Nat) : Int)) = v at hj
      by_cases hc : -(2 ^ 63 : Int) ≤ v ∧ v < 2 ^ 63
      · rw [if_pos hc] at hj; cases hj; exact hc
      · rw [if_neg hc] at hj; cases hj
  unfold parseInt at h
  cases hq : r.expectToken .int with
  | error e => rw [hq] at h; cases h
  | ok q =>
    rw [hq] at h
    replace h : (Except.bind (q.1.asInt q.2) fun x => .ok (x, q.2) : Res (Int × Reader)) = .ok (i, r') := h
    cases hz : q.1.asInt q.2 with
    | error e => rw [hz] at h; cases h
    | ok j =>
      rw [hz] at h
      cases h
      unfold Token.asInt at hz
      split at hz
      · exact hs _ _ hz
      · cases hz

/-! ### Smart pointers -/

theorem Points.isPtr {smart : Ty → Bool} {ty t raw : Ty} {n : Nat} (h : Points p N L env smart ty t n raw) :
    ReflectedPtr p ty ty t raw N.boolT false n := by
  rcases h.kind with ⟨rfl, V⟩ | ⟨rfl, V⟩
  · exact V.toReflectedPtr
  · exact V.toReflectedPtr

/-- `cast<bool>(ptr)` by way of the converter `f`, which is handed a pointer that holds the same -/
theorem castBool_by {ty boolT : Ty} {n : Nat} (hd : p.w.valueT ≠ p.w.voidT)
    (hB : PlainCopy p boolT ∧ p.size boolT = 1 ∧ p.w.env.conv boolT boolT = false) (hid : (p.w.ty boolT).id = "bool".toList)
    (hconv : p.w.env.conv ty boolT = true) (hchild : p.w.env.child ty boolT = false) (fuel : Nat) (hp : Heap) (o : Handle)
    (hty : o.arg.type = ty) {f : Fn} {u : Arg} (g1 : p.w.functionF p.w.fuel ty "operator bool()".toList = .ok [f]) (g2 : f.args = [u])
    (g3 : f.ret = boolT.val) (g4 : ∀ hp a k, p.impl f.body hp [.obj a k] = ptrBool n hp a)
    (hu : isConvertibleTo p.w.env o.arg u ≠ .none) {h1 : Heap} {a : Nat} {k : Bool} (hb : p.castTo (p.run fuel) hp o u = .ok (h1, .obj a k))
    (hok : h1.Ok a n) (ha : h1.mem a = hp.mem o.addr) (he : Ext hp h1) :
    ∃ hp', castBool p boolT (fuel + 1) hp o = .ok (hp', decide (hp.mem o.addr ≠ 0)) ∧ Ext hp hp' ∧ hp.next < hp'.next := by
  obtain ⟨B, hsz, -⟩ := hB
  have hname : World.converterName (p.w.ty boolT).id = "operator bool()".toList := by rw [hid]; decide
  have hcf : p.w.converter ty boolT = .ok f := by
    unfold World.converter
    rw [hname, g1]; rfl
  have htest : f.test p.w.env p.valueArg [o.arg] ≠ .none := by
    have h1 := test_ctor p.w.env f u o.arg hd (by rw [g3]; exact B.notVoid) (by rw [g3]; exact B.notValue) g2
    rwa [← h1] at hu
  have hb : p.bind (p.run fuel) hp [o] f.args = .ok (h1, [.obj a k]) := by
    rw [g2]
    simp only [Prog.bind, hb]
  have hbody : p.impl f.body h1 [.obj a k] =
      .ok ((h1.newObj (fun _ => if h1.mem a = 0 then 0 else 1) 1).1, .obj h1.next) := by
    rw [g4, ptrBool, if_pos hok]; rfl
  rw [ha] at hbody
  have q1 : (h1.newObj (fun _ => if hp.mem o.addr = 0 then 0 else 1) 1).1.next = h1.next + 1 + 1 := rfl
  have q2 : (h1.newObj (fun _ => if hp.mem o.addr = 0 then 0 else 1) 1).1.mem h1.next = if hp.mem o.addr = 0 then 0 else 1 :=
    newObj_new h1 _ 1 0 (by omega)
  have q3 : ∀ y < h1.next, (h1.newObj (fun _ => if hp.mem o.addr = 0 then 0 else 1) 1).1.mem y = h1.mem y := fun y hy => newObj_old _ _ _ _ hy
  generalize (h1.newObj (fun _ => if hp.mem o.addr = 0 then 0 else 1) 1).1 = h2 at hbody q1 q2 q3
  have he1 := he.grow
  obtain ⟨h3, r, hw, hst, -⟩ := C67_temporary_stored p h2 boolT.val h1.next (by simp [Ty.val]) (.inl B.copyable)
    ⟨by have := hok.1; have := hok.2; omega, by show h1.next + p.size boolT ≤ _; omega⟩
  have hrun : p.run (fuel + 1) hp f [o] = .ok (h3, r) := by
    simp only [Prog.run, hb, hbody, Prog.wrapRet, g3, hw]
  have hcast : p.castV (p.run (fuel + 1)) hp o boolT.val = .ok (h3, r) := by
    have hc : p.convert (p.run (fuel + 1)) hp o boolT = .ok (h3, r) := by
      unfold Prog.convert
      rw [hty, hcf]
      simp only [if_neg htest, hrun]
    simp only [Prog.castV, Ty.val, B.copiable, if_true, hty, hchild, hconv, hc, Bool.false_eq_true, if_false]
  have hs1 : p.size boolT.val.type = 1 := hsz
  have w1 := hst.live
  have w2 := hst.grow
  have w3 := hst.frame
  have w4 := hst.same 0 (by omega)
  have w5 := hst.fresh
  rw [hs1] at w1 w3
  obtain ⟨h4, e1, e2, e3, e4⟩ := copyObj_ok h3 1 r.addr w1
  have hchr : p.w.env.child r.arg.type boolT = true := by rw [hst.arg]; exact child_refl _ _
  have hneb : boolT.val ≠ p.valueArg := fun z => B.notValue (congrArg Arg.type z)
  refine ⟨h4, ?_, ⟨fun y hy => ?_, by omega⟩, by omega⟩
  · unfold castBool Prog.castTo
    rw [if_neg hneb, hcast]
    simp only [Prog.castRet, Ty.val, B.copyable, if_true, Handle.get, hchr, hsz, e1]
    have e5 := e3 0 (by omega)
    simp only [Nat.add_zero] at e5 w4
    rw [e5, w4, q2]
    congr 3
    by_cases z : hp.mem o.addr = 0 <;> simp [z]
  · rw [e4 y (by omega), w3 y (by omega) (by omega), q3 y (by omega), he.same y hy]

/-- `cast<bool>(ptr)` of a smart pointer -/
theorem castBool_spec {ty t raw boolT : Ty} {n : Nat} {ic : Bool} (V : ReflectedPtr p ty ty t raw boolT ic n)
    (hid : (p.w.ty boolT).id = "bool".toList)
    (hconv : p.w.env.conv ty boolT = true) (hchild : p.w.env.child ty boolT = false) (fuel : Nat) (hp : Heap) (o : Handle)
    (ho : o.arg.type = ty) (hok : hp.Ok o.addr n) :
    ∃ hp', castBool p boolT (fuel + 1) hp o = .ok (hp', decide (hp.mem o.addr ≠ 0)) ∧ Ext hp hp' ∧ hp.next < hp'.next := by
  obtain ⟨f, g1, g2, g3, g4⟩ := V.toBool
  refine castBool_by V.distinct V.boolPlain hid hconv hchild fuel hp o ho g1 g2 g3 g4 ?_ (k := false) ?_ hok rfl ⟨fun _ _ => rfl, Nat.le_refl _⟩
  · exact match_lref p.w.env o.arg ty true (by rw [ho]; exact V.notValue.1) V.notValue.1 (by rw [ho]; exact V.noConverter)
      (by rw [ho]; exact V.derives) (Or.inl rfl)
  · have hnes : ty.cref ≠ p.valueArg := by simp [Prog.valueArg, Ty.cref]
    simp only [Prog.castTo, if_neg hnes]
    simp [Prog.castV, Ty.cref, ho, V.derives, Prog.castRet, Handle.as]

/-- `ptr.call<void>("reset")` -/
theorem reset_spec (hL : L.Sound p N) {smart : Ty → Bool} {ty t raw : Ty} {n : Nat} (P : Points p N L env smart ty t n raw) (fuel : Nat) (hp : Heap)
    (o : Handle) (ho : o.arg = ty.lref) {v : JV} {O : Nat → Prop} (hr : Rep p N L hp ty o.addr v O) :
    ∃ hp', callVoid p (fuel + 1) hp o "reset".toList [] = .ok hp' ∧ Become p N L hp hp' ty o.addr O .null fun _ => False := by
  obtain ⟨A, a1, a2, a3, a4⟩ := rep_pool hL P.form hr
  rcases P.kind with ⟨rfl, V⟩ | ⟨rfl, V⟩
  · obtain ⟨hp', e1, e2, e3⟩ := C87_unique_reset V fuel hp (a2 rfl) o ⟨ho, by simp⟩
    refine ⟨hp', by unfold callVoid; rw [e1]; rfl, null_of_step hL P.form hr a1 a4 ?_ e3.elsewhere (fun c => by cases c)⟩
    have := e3.holds o.addr (by simp)
    simpa [PtrCall.effect, give] using this
  · obtain ⟨hp', e1, e2, e3⟩ := C87_shared_reset V fuel hp (a3 rfl) o ⟨ho, by simp⟩
    refine ⟨hp', by unfold callVoid; rw [e1]; rfl, null_of_step hL P.form hr a1 a4 ?_ e3.elsewhere (fun _ => e2)⟩
    have := e3.holds o.addr (by simp)
    simpa [PtrCall.effect, give] using this

/-- `*ptr` -/
theorem deref_spec (hL : L.Sound p N) {smart : Ty → Bool} {ty t raw : Ty} {n : Nat} (P : Points p N L env smart ty t n raw) (fuel : Nat) (hp : Heap)
    (o : Handle) (ho : o.arg = ty.lref) {w : JV} {O : Nat → Prop} (hr : Rep p N L hp ty o.addr (.ptr w) O) :
    callValue p (fuel + 1) hp o "operator*".toList [] = .ok (hp, ⟨t.lref, hp.mem o.addr, none⟩) := by
  obtain ⟨h1, -⟩ := ptr_set hL P.form hr
  have hok := (hr.own hL).1
  rw [P.isPtr.size] at hok
  unfold callValue
  rw [C87_deref P.isPtr fuel hp o (by rw [ho]; rfl) hok (by omega)]
  rfl

/-- `type->alloc()`, and `*value` of what it gives -/
theorem alloc_spec {smart : Ty → Bool} {ty t raw : Ty} {n : Nat} (P : Points p N L env smart ty t n raw) {d : TyD} (hd : env.types[t]? = some d)
    (fuel : Nat) (hp : Heap) (hpos : 0 < hp.next) :
    match (if d.alloc then d.make else none) with
    | none => allocValue p (fuel + 1) hp t = .error .err
    | some dv => ∃ hp' v u, allocValue p (fuel + 1) hp t = .ok (hp', v) ∧ callValue p (fuel + 1) hp' v "operator*".toList [] = .ok (hp', u) ∧
        u.arg = t.lref ∧ v.arg = raw.lref ∧ hp'.Ok v.addr 1 ∧ hp.next ≤ v.addr ∧ hp'.mem v.addr = u.addr ∧ hp.next ≤ u.addr ∧
        v.addr + 1 ≠ u.addr ∧ (v.addr < u.addr ∨ u.addr + p.size t ≤ v.addr) ∧ Ext hp hp' ∧ Rep p N L hp' t u.addr dv fun _ => False := by
  have hA := P.allocs d hd
  unfold Allocs at hA
  cases hm : (if d.alloc then d.make else none) with
  | none =>
    rw [hm] at hA
    simp only at hA ⊢
    rcases hA with h | ⟨o, h1, h2⟩
    · unfold allocValue Prog.alloc Prog.typeCall
      rw [h]
    · have := typeCall_refused p t "new".toList o h1 (fun f hf => h2 f hf) (fuel + 1) hp
      unfold allocValue Prog.alloc
      rw [this]
  | some dv =>
    rw [hm] at hA
    simp only at hA ⊢
    obtain ⟨init, copy, move, h1, h2⟩ := hA
    obtain ⟨l, tab, t1, t2, t3⟩ := P.deref
    obtain ⟨R, -, hself⟩ := P.isPtr.rawPlain
    obtain ⟨hp', v, e1, e2, e3⟩ := C79_alloc p fuel hp t t raw init copy move h1 hpos
    obtain ⟨u, d1, d2, d3, d4⟩ := C79_deref p fuel hp' l t raw false v tab t1 t2 t3 hself P.notVoid P.isPtr.notValue.2.2 R.notValue R.distinct
      (by rw [e2.arg]) e2.live
    refine ⟨hp', v, u, by unfold allocValue; rw [e1], by unfold callValue; rw [d1], ?_, e2.arg, e2.live, e2.fresh, d2.symm, ?_, ?_, ?_,
      ⟨e3, e2.grow⟩, ?_⟩
    · rw [d4, e2.arg]; rfl
    · rw [d2]; exact e2.objFresh
    · rw [d2]; exact e2.mark
    · rw [d2]; exact e2.apart
    · rw [d2]; exact h2 hp' _ e2.objLive e2.contents

/-- `ptr.call<void>("reset", value)` of an empty pointer -/
theorem take_spec (hL : L.Sound p N) {smart : Ty → Bool} {ty t raw : Ty} {n : Nat} (P : Points p N L env smart ty t n raw) (fuel : Nat) (h : Heap)
    (o v : Handle) (ho : o.arg = ty.lref) {x : JV} {O Ox : Nat → Prop} {b : Nat} (hr : Rep p N L h ty o.addr .null O) (hx : Rep p N L h t b x Ox)
    (hva : v.arg = raw.lref) (hvl : h.Ok v.addr 1) (hvb : h.mem v.addr = b) (hb : 1 < b)
    (hm : ¬ OwnCell p ty o.addr (b - 1) ∧ ¬ Ox (b - 1)) (hd : ∀ y, OwnCell p t b y ∨ Ox y → ¬ OwnCell p ty o.addr y)
    (hvo : ¬ OwnCell p ty o.addr v.addr) (hvm : v.addr + 1 ≠ b) :
    ∃ h' O', callVoid p (fuel + 2) h o "reset".toList [.dyn v] = .ok h' ∧ Rep p N L h' ty o.addr (.ptr x) O' ∧
      (∀ y < h.next, O' y → y + 1 = b ∨ OwnCell p t b y ∨ Ox y) ∧
      (∀ y < h.next, ¬ OwnCell p ty o.addr y → y + 1 ≠ b → h'.mem y = h.mem y) ∧ h.next ≤ h'.next := by
  obtain ⟨s1, s2⟩ := hL.ptr ty t n P.form
  obtain ⟨R, -, hself⟩ := P.isPtr.rawPlain
  have hbn : b - 1 < h.next := by have := (hx.own hL).1.2; omega
  obtain ⟨z1, z2, z3, z4⟩ := null_pool hL P.form hr ⟨hb, hbn⟩ hm.1
  have hready : (PtrCall.take o v).Ready p h ty raw n [o.addr] [b] := by
    refine ⟨⟨ho, by simp⟩, ⟨by rw [hva]; exact R.notValue, by rw [hva]; exact child_refl _ _, by rw [hva]; exact hself, by rw [hva]; simp [Ty.lref]⟩,
      hvl, fun c => ?_, by simp [hvb]⟩
    rcases inPool_one c with c | ⟨b', c, c'⟩ | ⟨c1, c2, -⟩
    · exact hvo ⟨c.1, by rw [s1]; exact c.2⟩
    · simp only [List.mem_singleton] at c
      omega
    · exact c2 (z4 c1)
  have hfree : ¬ Held [o.addr] h.holds (h.mem v.addr) := by
    rintro ⟨q, hq, e⟩
    simp only [List.mem_singleton] at hq
    subst hq
    rw [hvb] at e
    have : h.mem o.addr = b := e
    omega
  rcases P.kind with ⟨rfl, V⟩ | ⟨rfl, V⟩
  · obtain ⟨h', e1, e2, e3⟩ := C87_unique_take V fuel h (z1 rfl) o v hready hfree
    have hz : h'.mem o.addr = b := by
      have := e3.holds o.addr (by simp)
      rw [← hvb]
      simpa [PtrCall.effect, give] using this
    obtain ⟨O', p1, p2, p3⟩ := ptr_of_step hL P.form hr hx hb hm hd e3.elsewhere hz (fun c => by cases c)
    exact ⟨h', O', by unfold callVoid; rw [e1]; rfl, p1, p2, p3, e3.elsewhere.grow⟩
  · obtain ⟨h', e1, e2, e3⟩ := C87_shared_take V fuel h (z2 rfl) o v hready hfree
    have hz : h'.mem o.addr = b := by
      have := e3.holds o.addr (by simp)
      rw [← hvb]
      simpa [PtrCall.effect, give] using this
    obtain ⟨O', p1, p2, p3⟩ := ptr_of_step hL P.form hr hx hb hm hd e3.elsewhere hz (fun _ => e2)
    exact ⟨h', O', by unfold callVoid; rw [e1]; rfl, p1, p2, p3, e3.elsewhere.grow⟩

/-- what happens to an object that is made meanwhile does not touch the others -/
theorem aside (hL : L.Sound p N) {h h1 h2 : Heap} {ty t : Ty} {a b : Nat} {v x : JV} {O Ox : Nat → Prop} (hr : Rep p N L h ty a v O)
    (he : Ext h h1) (hb : h.next ≤ b) (hx : Become p N L h1 h2 t b (fun _ => False) x Ox) :
    Become p N L h h2 ty a O v O ∧ (∀ y, Ox y → ¬ O y ∧ ¬ OwnCell p ty a y ∧ h.next ≤ y) ∧ (∀ y, OwnCell p t b y → ¬ O y ∧ ¬ OwnCell p ty a y) := by
  obtain ⟨o1, o2⟩ := hr.own hL
  have hs : ∀ y < h.next, h2.mem y = h.mem y := fun y hy => by
    rw [hx.same y (Nat.lt_of_lt_of_le hy he.grow) (fun c => by have := c.1; omega) (fun c => c), he.same y hy]
  have hn := Nat.le_trans he.grow hx.grow
  have hout : ∀ y, h.next ≤ y → ¬ O y ∧ ¬ OwnCell p ty a y := fun y hy =>
    ⟨fun c => by have := (o2 y c).1; omega, fun c => by have := c.2; have := o1.2; omega⟩
  have hnew : ∀ y, Ox y → h.next ≤ y := fun y hy => by
    rcases Nat.lt_or_ge y h1.next with c | c
    · exact (hx.mine y c hy).elim
    · exact Nat.le_trans he.grow c
  exact ⟨⟨hr.kept hL hn fun y hy _ => hs y hy, fun y hy _ _ => hs y hy, fun _ _ h => h, hn⟩,
    fun y hy => ⟨(hout y (hnew y hy)).1, (hout y (hnew y hy)).2, hnew y hy⟩, fun y hy => hout y (Nat.le_trans hb hy.1)⟩


end

end Reflect.Json
