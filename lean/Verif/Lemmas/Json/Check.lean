import Verif.Lemmas.Json.Tables
/- Checking the conditions on a concrete environment by computation. -/
namespace Reflect.Json

/-- no custom parser or printer -/
def TyD.plainJson (d : TyD) : Bool := match d.json with | none => true | some t => t.parser == [] && t.printer == []

theorem plainJson_spec {d : TyD} (h : d.plainJson = true) : ∀ t, d.json = some t → t.parser = [] ∧ t.printer = [] := by
  intro t ht
  unfold TyD.plainJson at h
  rw [ht] at h
  simpa using h

/-- the kind of a type -/
def TyD.shape? (d : TyD) : Option Shape :=
  if d.flags = [true, false, false, false, false, false, false, false] then some .bool
  else if d.flags = [false, true, false, false, false, false, false, false] then some .int
  else if d.flags = [false, false, true, false, false, false, false, false] then some .float
  else if d.flags = [false, false, false, true, false, false, false, false] then some .string
  else if d.flags = [false, false, false, false, true, false, false, false] then d.pointee.map .ptr
  else if d.flags = [false, false, false, false, false, true, false, false] then d.valueType.map .map
  else if d.flags = [false, false, false, false, false, false, true, false] then d.valueType.map .list
  else if d.plainJson then
    if d.flags = [false, false, false, false, false, false, false, true] then some .void
    else if d.flags = [false, false, false, false, false, false, false, false] then some .object
    else none
  else none

theorem shape_is {d : TyD} {sh : Shape} (h : d.shape? = some sh) : d.Is sh := by
  unfold TyD.shape? at h
  repeat' (split at h)
  all_goals first
    | (cases h; constructor <;> first | assumption | (exact plainJson_spec ‹_›))
    | (simp only [Option.map_eq_some_iff] at h; obtain ⟨t, h1, rfl⟩ := h; constructor <;> assumption)
    | (cases h; done)

/-- the environment's types refer to one another only, and keys are different -/
def Env.closedB (env : Env) : Bool :=
  env.types.all fun d =>
    match d.shape? with
    | none => false
    | some (.ptr t) | some (.list t) | some (.map t) => decide (t < env.types.length)
    | some .object => d.fields.all (fun f => f.key == none || decide (f.type < env.types.length)) && decide d.keys.Nodup
    | _ => true

/-- the names of the fields of each type are different -/
def Env.namedB (env : Env) : Bool := env.types.all fun d => decide (d.fields.map (·.name)).Nodup

/-- there is no `void` -/
def Env.solidB (env : Env) : Bool := env.types.all fun d => d.shape? != some .void

variable {env : Env}

theorem mem_of_get {ty : TyId} {d : TyD} (h : env.types[ty]? = some d) : d ∈ env.types := List.mem_of_getElem? h

theorem namedB_spec (h : env.namedB = true) : env.Named := by
  intro ty d hd
  have := List.all_eq_true.mp h d (mem_of_get hd)
  simpa using this

theorem closedB_has (h : env.closedB = true) {ty : TyId} {d : TyD} (hd : env.types[ty]? = some d) : ∃ sh, d.shape? = some sh := by
  have := List.all_eq_true.mp h d (mem_of_get hd)
  cases hs : d.shape? with
  | none => rw [hs] at this; simp at this
  | some sh => exact ⟨sh, rfl⟩

theorem closedB_shaped (h : env.closedB = true) : env.Shaped := by
  intro ty d hd
  obtain ⟨sh, hs⟩ := closedB_has h hd
  exact ⟨sh, shape_is hs⟩

theorem shape_has (h : env.closedB = true) {ty : TyId} {d : TyD} {sh : Shape} (hd : env.Has ty d sh) : d.shape? = some sh := by
  obtain ⟨sh', hs⟩ := closedB_has h hd.1
  rw [hs, is_unique (shape_is hs) hd.2]

theorem solidB_spec (h : env.closedB = true) (h2 : env.solidB = true) (T : TyId → Prop) :
    ∀ ty d, T ty → ¬ env.Has ty d .void := by
  intro ty d _ hd
  have := List.all_eq_true.mp h2 d (mem_of_get hd.1)
  rw [shape_has h hd] at this
  simp at this

theorem closedB_spec (h : env.closedB = true) : env.Closed (· < env.types.length) := by
  have key : ∀ {ty : TyId} {d : TyD} {sh : Shape}, env.Has ty d sh → _ := fun hd => List.all_eq_true.mp h _ (mem_of_get hd.1)
  refine ⟨?_, ?_, ?_, ?_, ?_, ?_⟩
  · intro ty hty
    obtain ⟨sh, hs⟩ := closedB_has h (List.getElem?_eq_getElem hty)
    exact ⟨_, sh, List.getElem?_eq_getElem hty, shape_is hs⟩
  · intro ty d t _ hd
    have := key hd
    rw [shape_has h hd] at this
    simpa using this
  · intro ty d t _ hd
    have := key hd
    rw [shape_has h hd] at this
    simpa using this
  · intro ty d t _ hd
    have := key hd
    rw [shape_has h hd] at this
    simpa using this
  · intro ty d f _ hd hf hk
    have := key hd
    rw [shape_has h hd] at this
    simp only [Bool.and_eq_true, List.all_eq_true] at this
    have := this.1 f hf
    simp only [Bool.or_eq_true, beq_iff_eq, decide_eq_true_eq] at this
    exact this.resolve_left hk
  · intro ty d _ hd
    have := key hd
    rw [shape_has h hd] at this
    simp only [Bool.and_eq_true, decide_eq_true_eq] at this
    exact this.2

end Reflect.Json
