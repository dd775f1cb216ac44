import Verif.Spec.JsonView
import Verif.Props.StdTypes
import Verif.Props.Traits
import Verif.Props.TypeGraph
import Verif.Model.Json.Typed
/-
  Property C97: which kind of JSON value a C++ type is read from and written as.
-/
namespace Reflect.Json

open Reflect.Spec

variable {ids : Ty → TyId} {typeOf : Handle → Option Ty} {jsonOf : Handle → Option Traits} {voidT : Ty}

theorem offers_is {t' : Noted} {id : Name} {cons assign table marks ptr} (h : Offers t' id cons assign table marks ptr) (n : String) :
    t'.own.is n.toList = decide (n ∈ marks.map (·.1)) := by
  unfold Reflect.Traits.is
  cases hg : t'.own.get n.toList with
  | some v =>
    obtain ⟨m, h1, h2, _⟩ := (h.traits _ _).mp hg
    have : n = m.1 := (String.toList_inj.mp h2).symm
    simp only [Option.isSome_some]
    symm
    rw [decide_eq_true_eq, this]
    exact List.mem_map.mpr ⟨m, h1, rfl⟩
  | none =>
    simp only [Option.isSome_none]
    symm
    rw [decide_eq_false_iff_not]
    intro hm
    obtain ⟨m, h1, h2⟩ := List.mem_map.mp hm
    have := (h.traits n.toList m.2).mpr ⟨m, h1, by rw [h2], rfl⟩
    rw [hg] at this; cases this

/-- the flags of a type, from its traits -/
theorem flags_of {t' : Noted} {id : Name} {cons assign table marks ptr} {d : TyD} {t : Ty}
    (h : Offers t' id cons assign table marks ptr) (hd : Views ids typeOf jsonOf voidT t t' d) (ht : t ≠ voidT) :
    let ns := marks.map (·.1)
    d.isBool = decide ("bool" ∈ ns) ∧ d.isInt = decide ("integer" ∈ ns) ∧ d.isFloat = decide ("float" ∈ ns) ∧
      d.isString = decide ("string" ∈ ns) ∧
      d.pointee = (if "pointer" ∈ ns then ptr.map fun p => ids p.2 else none) ∧
      d.isMap = decide ("map" ∈ ns) ∧ d.isList = decide ("list" ∈ ns) ∧ d.isVoid = false := by
  intro ns
  refine ⟨?_, ?_, ?_, ?_, ?_, ?_, ?_, ?_⟩
  · rw [hd.bool, offers_is h]
  · rw [hd.int, offers_is h]
  · rw [hd.float, offers_is h]
  · rw [hd.string, offers_is h]
  · rw [hd.pointee, Noted.isPointer, offers_is h, h.pointer]
    simp only [decide_eq_true_eq, Option.map_map]
    rfl
  · rw [hd.map, offers_is h]
  · rw [hd.list, offers_is h]
  · rw [hd.void]; simpa using ht

/-- C97. A number is read and written as a truth value, an integer or a real number, whatever its width and sign. -/
theorem C97_number (e : Reflect.Env) (l : Lib) (t raw sum : Ty) (k : NumKind) (id : Name)
    (hid : id ≠ "operator=".toList) (hn : ∀ r ∈ Spec.numberTable t raw sum, r.1.toList ≠ id) (ht : t ≠ voidT) :
    ∃ t', (Noted.new id).runAll e l.void (numberDesc l t raw sum k id) = (t', .ok ()) ∧
      ∀ d, Views ids typeOf jsonOf voidT t t' d → d.Is (numberShape k) := by
  obtain ⟨t', h1, h2⟩ := C76_number e l t raw sum k id hid hn
  refine ⟨t', h1, fun d hd => ?_⟩
  obtain ⟨f1, f2, f3, f4, f5, f6, f7, f8⟩ := flags_of h2 hd ht
  cases k with
  | bool =>
    refine TyD.Is.bool ?_
    simp [TyD.flags, f1, f2, f3, f4, f5, f6, f7, f8, numberTraits, valued, Spec.flags, kindNames]
  | integer s =>
    refine TyD.Is.int ?_
    cases s <;> simp [TyD.flags, f1, f2, f3, f4, f5, f6, f7, f8, numberTraits, valued, Spec.flags, kindNames]
  | float =>
    refine TyD.Is.float ?_
    simp [TyD.flags, f1, f2, f3, f4, f5, f6, f7, f8, numberTraits, valued, Spec.flags, kindNames]

/-- C97. `std::string` is read and written as a string. -/
theorem C97_string (e : Reflect.Env) (l : Lib) (t raw : Ty) (id : Name)
    (hid : id ≠ "operator=".toList) (hn : ∀ r ∈ Spec.stringTable l t raw, r.1.toList ≠ id) (ht : t ≠ voidT) :
    ∃ t', (Noted.new id).runAll e l.void (stringDesc l t raw id) = (t', .ok ()) ∧
      ∀ d, Views ids typeOf jsonOf voidT t t' d → d.Is .string := by
  obtain ⟨t', h1, h2⟩ := C76_string e l t raw id hid hn
  refine ⟨t', h1, fun d hd => TyD.Is.string ?_⟩
  obtain ⟨f1, f2, f3, f4, f5, f6, f7, f8⟩ := flags_of h2 hd ht
  simp [TyD.flags, f1, f2, f3, f4, f5, f6, f7, f8, stringTraits, valued, Spec.flags]

/-- C97. `std::vector<V>` is read and written as an array of `V`s. -/
theorem C97_vector (e : Reflect.Env) (l : Lib) (t elem : Ty) (c : Caps) (id : Name)
    (hid : id ≠ "operator=".toList) (hn : ∀ r ∈ Spec.vectorTable l t elem, r.1.toList ≠ id) (ht : t ≠ voidT)
    (hv : typeOf (l.traitVal t "valueType".toList) = some elem) :
    ∃ t', (Noted.new id).runAll e l.void (vectorDesc l t elem c id) = (t', .ok ()) ∧
      ∀ d, Views ids typeOf jsonOf voidT t t' d → d.Is (.list (ids elem)) := by
  obtain ⟨t', h1, h2⟩ := C76_vector e l t elem c id hid hn
  refine ⟨t', h1, fun d hd => TyD.Is.list _ ?_ ?_⟩
  · obtain ⟨f1, f2, f3, f4, f5, f6, f7, f8⟩ := flags_of h2 hd ht
    simp [TyD.flags, f1, f2, f3, f4, f5, f6, f7, f8, vectorTraits, valued, Spec.flags]
  · rw [hd.valueType, (h2.traits "valueType".toList (l.traitVal t "valueType".toList)).mpr
      ⟨("valueType", _), by simp [vectorTraits, valued], rfl, rfl⟩]
    simp only [Option.bind_some, hv, Option.map_some]

/-- C97. `std::map<K, V>` and `std::unordered_map<K, V>` are read and written as objects whose members are `V`s. -/
theorem C97_map (e : Reflect.Env) (l : Lib) (t key elem keys : Ty) (c : Caps) (id : Name)
    (hid : id ≠ "operator=".toList) (hn : ∀ r ∈ Spec.mapTable l t key elem keys, r.1.toList ≠ id) (ht : t ≠ voidT)
    (hv : typeOf (l.traitVal t "valueType".toList) = some elem) :
    ∃ t', (Noted.new id).runAll e l.void (mapDesc l t key elem keys c id) = (t', .ok ()) ∧
      ∀ d, Views ids typeOf jsonOf voidT t t' d → d.Is (.map (ids elem)) := by
  obtain ⟨t', h1, h2⟩ := C76_map e l t key elem keys c id hid hn
  refine ⟨t', h1, fun d hd => TyD.Is.map _ ?_ ?_⟩
  · obtain ⟨f1, f2, f3, f4, f5, f6, f7, f8⟩ := flags_of h2 hd ht
    simp [TyD.flags, f1, f2, f3, f4, f5, f6, f7, f8, mapTraits, valued, Spec.flags]
  · rw [hd.valueType, (h2.traits "valueType".toList (l.traitVal t "valueType".toList)).mpr
      ⟨("valueType", _), by simp [mapTraits, valued], rfl, rfl⟩]
    simp only [Option.bind_some, hv, Option.map_some]

/-- C97. `T*`, `std::shared_ptr<T>` and `std::unique_ptr<T>` are read and written as null or a `T`. -/
theorem C97_pointer (e : Reflect.Env) (l : Lib) (t inner : Ty) (k : Bool) (id : Name)
    (hid : id ≠ "operator=".toList) (hn : ∀ r ∈ Spec.pointerTable l t inner k, r.1.toList ≠ id) (ht : t ≠ voidT) :
    ∃ t', (Noted.new id).runAll e l.void (pointerDesc l t inner k id) = (t', .ok ()) ∧
      ∀ d, Views ids typeOf jsonOf voidT t t' d → d.Is (.ptr (ids inner)) := by
  obtain ⟨t', h1, h2⟩ := C76_pointer e l t inner k id hid hn
  refine ⟨t', h1, fun d hd => ?_⟩
  obtain ⟨f1, f2, f3, f4, f5, f6, f7, f8⟩ := flags_of h2 hd ht
  refine TyD.Is.ptr _ ?_ ?_
  · simp [TyD.flags, f1, f2, f3, f4, f5, f6, f7, f8, pointerTraits, valued, Spec.flags]
  · simp [f5, pointerTraits, valued, Spec.flags]

/-- C97. The same for `std::shared_ptr<T>`. -/
theorem C97_shared (e : Reflect.Env) (l : Lib) (t inner raw : Ty) (k : Bool) (id : Name)
    (hid : id ≠ "operator=".toList) (hn : ∀ r ∈ Spec.sharedTable l t inner raw k, r.1.toList ≠ id)
    (hv : t ≠ e.valueT) (hr : raw ≠ e.valueT) (hne : t ≠ raw) (hc : e.child t raw = false) (ht : t ≠ voidT) :
    ∃ t', (Noted.new id).runAll e l.void (sharedDesc l t inner raw k id) = (t', .ok ()) ∧
      ∀ d, Views ids typeOf jsonOf voidT t t' d → d.Is (.ptr (ids inner)) := by
  obtain ⟨t', h1, h2⟩ := C76_shared e l t inner raw k id hid hn hv hr hne hc
  refine ⟨t', h1, fun d hd => ?_⟩
  obtain ⟨f1, f2, f3, f4, f5, f6, f7, f8⟩ := flags_of h2 hd ht
  refine TyD.Is.ptr _ ?_ ?_
  · simp [TyD.flags, f1, f2, f3, f4, f5, f6, f7, f8, smartTraits, valued, Spec.flags]
  · simp [f5, smartTraits, valued, Spec.flags]

/-- C97. The same for `std::unique_ptr<T>`. -/
theorem C97_unique (e : Reflect.Env) (l : Lib) (t inner raw : Ty) (k : Bool) (id : Name)
    (hid : id ≠ "operator=".toList) (hn : ∀ r ∈ Spec.uniqueTable l t inner raw k, r.1.toList ≠ id)
    (hv : t ≠ e.valueT) (hr : raw ≠ e.valueT) (hne : t ≠ raw) (hc : e.child t raw = false) (ht : t ≠ voidT) :
    ∃ t', (Noted.new id).runAll e l.void (uniqueDesc l t inner raw k id) = (t', .ok ()) ∧
      ∀ d, Views ids typeOf jsonOf voidT t t' d → d.Is (.ptr (ids inner)) := by
  obtain ⟨t', h1, h2⟩ := C76_unique e l t inner raw k id hid hn hv hr hne hc
  refine ⟨t', h1, fun d hd => ?_⟩
  obtain ⟨f1, f2, f3, f4, f5, f6, f7, f8⟩ := flags_of h2 hd ht
  refine TyD.Is.ptr _ ?_ ?_
  · simp [TyD.flags, f1, f2, f3, f4, f5, f6, f7, f8, smartTraits, valued, Spec.flags]
  · simp [f5, smartTraits, valued, Spec.flags]

theorem gives_none {void : Handle} {n : String} {ops : List NoteOp} (hn : n ∈ kindTraitNames ∨ n = "pointer")
    (h : ∀ op ∈ ops, ¬ Marks op) : ops.findSome? (givesType void n.toList) = none := by
  rw [List.findSome?_eq_none_iff]
  intro op hop
  have := h op hop
  unfold givesType
  split
  · rename_i m v
    rw [if_neg]
    rintro rfl
    exact this (hn.elim (fun h => Or.inl (List.mem_map.mpr ⟨n, h, rfl⟩)) (fun h => Or.inr (by rw [h])))
  · exact absurd trivial this
  · rfl

/-- C97. A class: a type none of whose description's calls - accepted or refused, in whatever order - gives it one of the
traits of the kinds above, or makes it a pointer. If its trait "json" names no functions, it is read and written as an
object; only `void` is not: what is read then is a value of any kind. -/
theorem C97_class (e : Reflect.Env) (void : Handle) (t : Ty) (id : Name) (ops : List NoteOp) (hm : ∀ op ∈ ops, ¬ Marks op)
    (hj : ∀ v j, NoteOp.trait "json".toList v ∈ ops → jsonOf v = some j → j.parser = [] ∧ j.printer = [])
    (d : TyD) (hd : Views ids typeOf jsonOf voidT t ((Noted.new id).run e void ops) d) : d.Is (if t = voidT then .void else .object) := by
  have no : ∀ n : String, n ∈ kindTraitNames ∨ n = "pointer" → ((Noted.new id).run e void ops).own.is n.toList = false := by
    intro n hn
    rw [(C72_type_trait e void id n.toList ops).2, gives_none hn hm]; rfl
  have hfl : d.flags = [false, false, false, false, false, false, false, decide (t = voidT)] := by
    have f5 : d.pointee = none := by
      rw [hd.pointee, Noted.isPointer, no "pointer" (Or.inr rfl)]; rfl
    unfold TyD.flags
    rw [hd.bool, hd.int, hd.float, hd.string, f5, hd.map, hd.list, hd.void, no "bool" (Or.inl (by simp [kindTraitNames])),
      no "integer" (Or.inl (by simp [kindTraitNames])), no "float" (Or.inl (by simp [kindTraitNames])),
      no "string" (Or.inl (by simp [kindTraitNames])), no "map" (Or.inl (by simp [kindTraitNames])),
      no "list" (Or.inl (by simp [kindTraitNames]))]
    rfl
  have hjs : ∀ j, d.json = some j → j.parser = [] ∧ j.printer = [] := by
    intro j h
    rw [hd.json, (C72_type_trait e void id "json".toList ops).1] at h
    cases hf : ops.findSome? (givesType void "json".toList) with
    | none => rw [hf] at h; cases h
    | some v =>
      rw [hf] at h
      obtain ⟨op, h1, h2⟩ := List.exists_of_findSome?_eq_some hf
      unfold givesType at h2
      split at h2
      · rename_i m w
        split at h2
        · rename_i hmn
          injection h2 with h2
          subst hmn; subst h2
          exact hj _ j h1 h
        · cases h2
      · rename_i a b
        exact absurd trivial (hm _ h1)
      · cases h2
  by_cases ht : t = voidT
  · rw [if_pos ht]
    rw [decide_eq_true ht] at hfl
    exact TyD.Is.void hfl hjs
  · rw [if_neg ht]
    rw [decide_eq_false ht] at hfl
    exact TyD.Is.object hfl hjs

/-- C97. `void`, the type of a `Value` without an object: what is read is a value of any kind. -/
theorem C97_void (e : Reflect.Env) (l : Lib) (id : Name) :
    ∃ t', (Noted.new id).runAll e l.void (voidDesc l) = (t', .ok ()) ∧
      ∀ d, Views ids typeOf jsonOf voidT voidT t' d → d.Is .void := by
  refine ⟨(Noted.new id).run e l.void (voidDesc l), ?_, fun d hd => ?_⟩
  · simp [Noted.runAll, Noted.run, voidDesc, flag, Noted.step, Noted.new, Reflect.Traits.addTrait, Assoc.get, Assoc.set, Assoc.erase]
  · have := C97_class e l.void voidT id (voidDesc l) (by
      intro op h
      simp only [voidDesc, flag, List.mem_cons, List.not_mem_nil, or_false] at h
      rcases h with rfl | rfl <;> simp [Marks, kindTraitNames]) (by
      intro v j h
      simp [voidDesc, flag] at h) d hd
    rwa [if_pos rfl] at this

/-- the value of the trait "json" is that of the first call that gave one -/
theorem json_first (e : Reflect.Env) (void : Handle) (t : Ty) (id : Name) (pre post : List NoteOp) (v : Handle)
    (hp : ∀ w, NoteOp.trait "json".toList w ∉ pre)
    {d : TyD} (hd : Views ids typeOf jsonOf voidT t ((Noted.new id).run e void (pre ++ .trait "json".toList v :: post)) d) :
    d.json = jsonOf v := by
  have h1 : pre.findSome? (givesType void "json".toList) = none := by
    rw [List.findSome?_eq_none_iff]
    intro op hop
    unfold givesType
    split
    · rename_i m w
      rw [if_neg]
      rintro rfl
      exact hp w hop
    · rw [if_neg (by simp)]
    · rfl
  rw [hd.json, (C72_type_trait e void id "json".toList _).1, List.findSome?_append, h1]
  simp [givesType]

/-- C97. A class whose trait "json" names a parser - the first trait of that name that its description gives it - is read by
that function; the same for the printer. -/
theorem C97_custom (e : Reflect.Env) (void : Handle) (t : Ty) (id : Name) (pre post : List NoteOp) (v : Handle)
    (hp : ∀ w, NoteOp.trait "json".toList w ∉ pre)
    (hm : ∀ op ∈ pre ++ .trait "json".toList v :: post, ¬ Marks op) (j : Traits) (hj : jsonOf v = some j)
    (d : TyD) (hd : Views ids typeOf jsonOf voidT t ((Noted.new id).run e void (pre ++ .trait "json".toList v :: post)) d) :
    (j.parser ≠ [] → d.parserKind = .custom ∧ d.customParser = j.parser) ∧
    (j.printer ≠ [] → d.printerKind = some .custom ∧ d.customPrinter = j.printer) := by
  have no : ∀ n : String, n ∈ kindTraitNames ∨ n = "pointer" →
      ((Noted.new id).run e void (pre ++ .trait "json".toList v :: post)).own.is n.toList = false := by
    intro n hn
    rw [(C72_type_trait e void id n.toList _).2, gives_none hn hm]; rfl
  have hk : ∀ n, n ∈ kindTraitNames → ((Noted.new id).run e void (pre ++ .trait "json".toList v :: post)).own.is n.toList = false :=
    fun n hn => no n (Or.inl hn)
  have f1 := hd.bool.trans (hk _ (by simp [kindTraitNames]))
  have f2 := hd.int.trans (hk _ (by simp [kindTraitNames]))
  have f3 := hd.float.trans (hk _ (by simp [kindTraitNames]))
  have f4 := hd.string.trans (hk _ (by simp [kindTraitNames]))
  have f5 : d.pointee = none := by
    rw [hd.pointee, Noted.isPointer, no "pointer" (Or.inr rfl)]; rfl
  have f6 := hd.map.trans (hk _ (by simp [kindTraitNames]))
  have f7 := hd.list.trans (hk _ (by simp [kindTraitNames]))
  have f8 : d.json = some j := (json_first e void t id pre post v hp hd).trans hj
  have c1 : d.customParser = j.parser := by simp [TyD.customParser, f8]
  have c2 : d.customPrinter = j.printer := by simp [TyD.customPrinter, f8]
  refine ⟨fun h => ⟨?_, c1⟩, fun h => ⟨?_, c2⟩⟩
  · simp [TyD.parserKind, f1, f2, f3, f4, f5, f6, f7, c1, h]
  · simp [TyD.printerKind, f1, f2, f3, f4, f5, f6, f7, c2, h]

/-- C97. A type that its description gives one of the traits bool, float, integer, string, map and list is never read or
written by functions its trait "json" names, nor as an object, whatever else it is given. -/
theorem C97_custom_ignored (e : Reflect.Env) (void : Handle) (t : Ty) (id : Name) (ops : List NoteOp) (n : String)
    (hn : n ∈ kindTraitNames) (v : Handle) (hop : NoteOp.trait n.toList v ∈ ops)
    (d : TyD) (hd : Views ids typeOf jsonOf voidT t ((Noted.new id).run e void ops) d) :
    d.parserKind ≠ .custom ∧ d.parserKind ≠ .object ∧ d.printerKind ≠ some .custom ∧ d.printerKind ≠ some .object := by
  have yes : ((Noted.new id).run e void ops).own.is n.toList = true := by
    rw [(C72_type_trait e void id n.toList ops).2, List.findSome?_isSome_iff]
    exact ⟨_, hop, by simp [givesType]⟩
  have hf : d.isBool = true ∨ d.isInt = true ∨ d.isFloat = true ∨ d.isString = true ∨ d.isMap = true ∨ d.isList = true := by
    simp only [kindTraitNames, List.mem_cons, List.not_mem_nil, or_false] at hn
    rcases hn with rfl | rfl | rfl | rfl | rfl | rfl
    · exact Or.inl (hd.bool.trans yes)
    · exact Or.inr (Or.inr (Or.inl (hd.float.trans yes)))
    · exact Or.inr (Or.inl (hd.int.trans yes))
    · exact Or.inr (Or.inr (Or.inr (Or.inl (hd.string.trans yes))))
    · exact Or.inr (Or.inr (Or.inr (Or.inr (Or.inl (hd.map.trans yes)))))
    · exact Or.inr (Or.inr (Or.inr (Or.inr (Or.inr (hd.list.trans yes)))))
  unfold TyD.parserKind TyD.printerKind
  cases h1 : d.isBool <;> cases h2 : d.isInt <;> cases h3 : d.isFloat <;> cases h4 : d.isString <;>
    cases h5 : d.pointee <;> cases h6 : d.isMap <;> cases h7 : d.isList <;> simp_all

/-- C97. A type that is given both traits, float and integer, and not bool, is read as a real number and written as an
integer: the two look for them in different orders. -/
theorem C97_float_and_integer (e : Reflect.Env) (void : Handle) (t : Ty) (id : Name) (ops : List NoteOp) (v w : Handle)
    (h1 : NoteOp.trait "float".toList v ∈ ops) (h2 : NoteOp.trait "integer".toList w ∈ ops)
    (h3 : ∀ u, NoteOp.trait "bool".toList u ∉ ops)
    (d : TyD) (hd : Views ids typeOf jsonOf voidT t ((Noted.new id).run e void ops) d) :
    d.parserKind = .float ∧ d.printerKind = some .int := by
  have yes : ∀ (n : String) v, NoteOp.trait n.toList v ∈ ops → ((Noted.new id).run e void ops).own.is n.toList = true := by
    intro n v hop
    rw [(C72_type_trait e void id n.toList ops).2, List.findSome?_isSome_iff]
    exact ⟨_, hop, by simp [givesType]⟩
  have f1 : d.isBool = false := by
    rw [hd.bool, (C72_type_trait e void id "bool".toList ops).2]
    have : ops.findSome? (givesType void "bool".toList) = none := by
      rw [List.findSome?_eq_none_iff]
      intro op hop
      unfold givesType
      split
      · rename_i m w
        rw [if_neg]
        rintro rfl
        exact h3 w hop
      · rw [if_neg (by simp)]
      · rfl
    rw [this]; rfl
  have f2 := hd.int.trans (yes _ w h2)
  have f3 := hd.float.trans (yes _ v h1)
  simp [TyD.parserKind, TyD.printerKind, f1, f2, f3]

/-- C97. The same kind is chosen for reading and for writing if the type is of one kind. -/
theorem C97_one_kind (d : TyD) (sh : Shape) (h : d.Is sh) (hv : sh ≠ .void) :
    (d.parserKind, d.printerKind) = match sh with
      | .bool => (.bool, some .bool)
      | .int => (.int, some .int)
      | .float => (.float, some .float)
      | .string => (.string, some .string)
      | .ptr _ => (.pointer, some .pointer)
      | .list _ => (.list, some .list)
      | .map _ => (.map, some .map)
      | .object => (.object, some .object)
      | .void => (.value, none) := by
  have cust : (∀ t, d.json = some t → t.parser = [] ∧ t.printer = []) → d.customParser = [] ∧ d.customPrinter = [] := by
    intro hj
    unfold TyD.customParser TyD.customPrinter
    cases hd : d.json with
    | none => exact ⟨rfl, rfl⟩
    | some t => exact hj t hd
  cases h with
  | void => exact absurd rfl hv
  | object hf hj =>
    have := cust hj
    simp only [TyD.flags, List.cons.injEq] at hf
    simp [TyD.parserKind, TyD.printerKind, hf, this]
  | bool hf => simp only [TyD.flags, List.cons.injEq] at hf; simp [TyD.parserKind, TyD.printerKind, hf]
  | int hf => simp only [TyD.flags, List.cons.injEq] at hf; simp [TyD.parserKind, TyD.printerKind, hf]
  | float hf => simp only [TyD.flags, List.cons.injEq] at hf; simp [TyD.parserKind, TyD.printerKind, hf]
  | string hf => simp only [TyD.flags, List.cons.injEq] at hf; simp [TyD.parserKind, TyD.printerKind, hf]
  | ptr t hf => simp only [TyD.flags, List.cons.injEq] at hf; simp [TyD.parserKind, TyD.printerKind, hf]
  | map t hf => simp only [TyD.flags, List.cons.injEq] at hf; simp [TyD.parserKind, TyD.printerKind, hf]
  | list t hf => simp only [TyD.flags, List.cons.injEq] at hf; simp [TyD.parserKind, TyD.printerKind, hf]

/-- non-vacuity: every described type is seen in some way -/
theorem views_exists (ids : Ty → TyId) (typeOf : Handle → Option Ty) (jsonOf : Handle → Option Traits) (voidT t : Ty) (t' : Noted) :
    ∃ d, Views ids typeOf jsonOf voidT t t' d :=
  ⟨{ isBool := t'.own.is "bool".toList, isFloat := t'.own.is "float".toList, isInt := t'.own.is "integer".toList,
     isString := t'.own.is "string".toList, isMap := t'.own.is "map".toList, isList := t'.own.is "list".toList,
     pointee := if t'.isPointer then t'.d.ptr.map fun p => ids p.2 else none,
     valueType := ((t'.own.get "valueType".toList).bind typeOf).map ids,
     json := (t'.own.get "json".toList).bind jsonOf, isVoid := decide (t = voidT) },
   rfl, rfl, rfl, rfl, rfl, rfl, rfl, rfl, rfl, rfl⟩

/-- non-vacuity: a class with a trait "json" and a field, and a list with a parser of its own -/
example (e : Reflect.Env) (l : Lib) (v : Handle) :
    (∀ op ∈ [NoteOp.trait "json".toList v, .decl (.addField "x".toList ⟨3, .copy, false⟩ 0)], ¬ Marks op) ∧
    NoteOp.trait "list".toList l.void ∈ [NoteOp.trait "json".toList v, .trait "list".toList l.void] ∧ "list" ∈ kindTraitNames := by
  refine ⟨?_, by simp, by simp [kindTraitNames]⟩
  intro op h
  simp only [List.mem_cons, List.not_mem_nil, or_false] at h
  rcases h with rfl | rfl
  · simp [Marks, kindTraitNames]
  · exact id
/-- `std::vector<int>`: the hypotheses hold, and so its types are seen -/
example (e : Reflect.Env) (l : Lib) (hv : typeOf (l.traitVal 7 "valueType".toList) = some 3) :
    ∃ t' d, (Noted.new "vector".toList).runAll e l.void (vectorDesc l 7 3 regular "vector".toList) = (t', .ok ()) ∧
      Views ids typeOf jsonOf 1 7 t' d ∧ d.Is (.list (ids 3)) := by
  obtain ⟨t', h1, h2⟩ := C97_vector (ids := ids) (jsonOf := jsonOf) (voidT := 1) e l 7 3 regular "vector".toList
    (by decide) (by simp [Spec.vectorTable]) (by decide) hv
  obtain ⟨d, hd⟩ := views_exists ids typeOf jsonOf 1 7 t'
  exact ⟨t', d, h1, hd, h2 d hd⟩

/-! ### the members of a class -/

theorem pairs_left {α β : Type} {R : α → β → Prop} {l : List α} {m : List β} (h : Pairs R l m) :
    ∀ a ∈ l, ∃ b ∈ m, R a b := by
  induction h with
  | nil => intro a h; cases h
  | cons h1 _ ih =>
    intro a ha
    rcases List.mem_cons.mp ha with rfl | ha
    · exact ⟨_, by simp, h1⟩
    · obtain ⟨b, h2, h3⟩ := ih a ha; exact ⟨b, by simp [h2], h3⟩

theorem pairs_right {α β : Type} {R : α → β → Prop} {l : List α} {m : List β} (h : Pairs R l m) :
    ∀ b ∈ m, ∃ a ∈ l, R a b := by
  induction h with
  | nil => intro a h; cases h
  | cons h1 _ ih =>
    intro b hb
    rcases List.mem_cons.mp hb with rfl | hb
    · exact ⟨_, by simp, h1⟩
    · obtain ⟨a, h2, h3⟩ := ih b hb; exact ⟨a, by simp [h2], h3⟩

theorem pairs_names {bytes : Name → Bytes} {P : Name → FieldD → Prop} {l : List Name} {m : List FieldD}
    (h : Pairs (fun n f => f.name = bytes n ∧ P n f) l m) : m.map (·.name) = l.map bytes := by
  induction h with
  | nil => rfl
  | cons h1 _ ih => simp [h1.1, ih]

theorem pairs_build {α β : Type} {R : α → β → Prop} {l : List α} (h : ∀ a ∈ l, ∃ b, R a b) : ∃ m, Pairs R l m := by
  induction l with
  | nil => exact ⟨[], .nil⟩
  | cons a l ih =>
    obtain ⟨b, hb⟩ := h a (by simp)
    obtain ⟨m, hm⟩ := ih fun x hx => h x (by simp [hx])
    exact ⟨b :: m, .cons hb hm⟩

section members
variable {w : World} {tbl : Ty → Noted} {bytes : Name → Bytes} {t : Ty}

/-- a field that is found comes from the closest that declares it -/
theorem field_declares (hcl : w.Closed) (hac : w.Acyclic) (hw : ∀ t, w.ty t = (tbl t).d) (ht : t < w.n) {name : Name}
    {g : Reflect.FieldD} (h : w.fieldF w.n t name = .ok g) :
    ∃ u, Declares w tbl t u name ∧ (tbl u).d.fields.get name = some g ∧
      Noted.fieldTraitsF tbl w.n t name = .ok ((tbl u).fieldTraits name) := by
  obtain ⟨k, u, h1, h2, h3⟩ := ((Reflect.C17_field_nearest w hcl hac t ht name w.n (by omega)).1 g).mp h
  simp only [hw] at h2 h3
  have hk : k < w.n := by
    have := World.anc_ends hcl hac t ht
    rcases Nat.lt_or_ge k w.n with hk | hk
    · exact hk
    · exfalso
      have key : ∀ (a b : Nat) (x : Ty), w.anc a x = none → a ≤ b → w.anc b x = none := by
        intro a
        induction a with
        | zero => intro b x hx _; cases hx
        | succ a ih =>
          intro b x hx hb
          obtain ⟨b, rfl⟩ : ∃ c, b = c + 1 := ⟨b - 1, by omega⟩
          simp only [World.anc] at hx ⊢
          cases hp : (w.ty x).parent with
          | none => rfl
          | some p => rw [hp] at hx; exact ih b p hx (by omega)
      rw [key w.n k t this hk] at h1
      cases h1
  refine ⟨u, ⟨k, h1, by rw [h2]; simp, h3⟩, h2, ?_⟩
  exact (C72_inherited_seen w tbl hw name k t u w.n hk h1).1 (by unfold Noted.HasField; rw [h2]; simp)
    fun j hj x hx => by unfold Noted.HasField; simp [h3 j hj x hx]

/-- C97. The members of a class in JSON are the fields it declares or inherits, each once and in the order of their names
- the member of a name is the field of the closest of the class and its ancestors that declares it: its type is that of
the field, and its trait "json" that of the field, not of the type that inherits it. -/
theorem C97_members (hcl : w.Closed) (hac : w.Acyclic) (hw : ∀ t, w.ty t = (tbl t).d) (ht : t < w.n) {d : TyD}
    (h : SeesMembers w tbl ids jsonOf bytes t d) :
    (∃ l : List Name, l.Pairwise (· < ·) ∧ d.fields.map (·.name) = l.map bytes ∧
      ∀ name, name ∈ l ↔ ∃ u, Declares w tbl t u name) ∧
    (∀ f ∈ d.fields, ∃ name u g, f.name = bytes name ∧ Declares w tbl t u name ∧ (tbl u).d.fields.get name = some g ∧
      f.type = ids g.arg.type ∧ f.json = (((tbl u).fieldTraits name).get "json".toList).bind jsonOf) := by
  obtain ⟨l, hl, hf⟩ := h
  obtain ⟨l', hl', hs, hm⟩ := Reflect.C18_fields w hcl hac t ht w.n (by omega)
  rw [hl] at hl'
  injection hl' with hl'
  subst hl'
  constructor
  · refine ⟨l, hs, pairs_names hf, fun name => ?_⟩
    rw [hm, (Reflect.C17_field_nearest w hcl hac t ht name w.n (by omega)).2.2.1]
    constructor
    · rintro ⟨g, hg⟩
      obtain ⟨u, h1, _⟩ := field_declares hcl hac hw ht hg
      exact ⟨u, h1⟩
    · rintro ⟨u, k, h1, h2, h3⟩
      cases hg : (tbl u).d.fields.get name with
      | none => exact absurd hg h2
      | some g =>
        refine ⟨g, ((Reflect.C17_field_nearest w hcl hac t ht name w.n (by omega)).1 g).mpr ⟨k, u, h1, ?_, ?_⟩⟩
        · simp only [hw]; exact hg
        · simp only [hw]; exact h3
  · intro f hmem
    obtain ⟨name, _, h1, g, m, h2, h3, h4, h5⟩ := pairs_right hf f hmem
    obtain ⟨u, h6, h7, h8⟩ := field_declares hcl hac hw ht h2
    rw [h8] at h3
    injection h3 with h3
    subst h3
    exact ⟨name, u, g, h1, h6, h7, h4, h5⟩

/-- C97. No two members of a class have the same name, in whatever way the types of the program are described. -/
theorem C97_members_distinct (hcl : w.Closed) (hac : w.Acyclic) (hw : ∀ t, w.ty t = (tbl t).d)
    (hb : ∀ x y, bytes x = bytes y → x = y) {env : Env}
    (henv : ∀ (ty : TyId) (d : TyD), env.types[ty]? = some d → ∃ t < w.n, SeesMembers w tbl ids jsonOf bytes t d) : env.Named := by
  intro ty d hd
  obtain ⟨t, ht, h⟩ := henv ty d hd
  obtain ⟨⟨l, h1, h2, _⟩, _⟩ := C97_members hcl hac hw ht h
  rw [h2]
  exact List.Pairwise.map _ (fun a b hab e => by rw [hb _ _ e] at hab; exact absurd hab (List.lt_irrefl b)) h1

/-- C97. And every type of an acyclic table is seen so: asking it for its fields raises no error. -/
theorem C97_members_seen (hcl : w.Closed) (hac : w.Acyclic) (hw : ∀ t, w.ty t = (tbl t).d) (ht : t < w.n) (d : TyD) :
    ∃ fs, SeesMembers w tbl ids jsonOf bytes t { d with fields := fs } := by
  obtain ⟨l, hl, hs, hm⟩ := Reflect.C18_fields w hcl hac t ht w.n (by omega)
  obtain ⟨fs, hfs⟩ := pairs_build (l := l) (R := fun (name : Name) (f : FieldD) => f.name = bytes name ∧ ∃ g m,
      w.fieldF w.n t name = .ok g ∧ Noted.fieldTraitsF tbl w.n t name = .ok m ∧ f.type = ids g.arg.type ∧
      f.json = (m.get "json".toList).bind jsonOf) (by
    intro name hn
    obtain ⟨g, hg⟩ := (Reflect.C17_field_nearest w hcl hac t ht name w.n (by omega)).2.2.1.mp ((hm name).mp hn)
    obtain ⟨u, h6, h7, h8⟩ := field_declares hcl hac hw ht hg
    exact ⟨⟨bytes name, ids g.arg.type, _⟩, rfl, g, _, hg, h8, rfl, rfl⟩)
  exact ⟨fs, l, hl, hfs⟩

end members

/-- non-vacuity: the table of Props/TypeGraph, in which the class 3 inherits the field `x`; its traits are those of 0 -/
example : ∃ fs, SeesMembers demoWorld (fun t => { Noted.new [] with d := demoWorld.ty t }) (fun t => t) jsonOf
    (fun n => n.map Char.toNat |>.map UInt8.ofNat) 3 { fields := fs } ∧ fs ≠ [] := by
  have hcl : demoWorld.Closed := by
    intro a b _ h
    rcases demo_edge _ _ h with ⟨rfl, rfl⟩ | ⟨rfl, rfl⟩ | ⟨rfl, rfl⟩ <;> decide
  have hac : demoWorld.Acyclic := fun t h => absurd (demo_reach t t h) (Nat.lt_irrefl t)
  obtain ⟨fs, h⟩ := C97_members_seen (jsonOf := jsonOf) (ids := fun t => t) (bytes := fun n => n.map Char.toNat |>.map UInt8.ofNat)
    (tbl := fun t => { Noted.new [] with d := demoWorld.ty t }) hcl hac (fun _ => rfl) (t := 3) (by decide) {}
  refine ⟨fs, h, ?_⟩
  rintro rfl
  obtain ⟨⟨l, _, h1, h2⟩, _⟩ := C97_members hcl hac (fun _ => rfl) (by decide) h
  have h3 := (h2 ['x']).mpr ⟨2, 1, by decide, by decide, fun j hj x hx => by
    obtain rfl : j = 0 := by omega
    cases hx; decide⟩
  cases l with
  | nil => cases h3
  | cons a l => cases h1

end Reflect.Json
