import Verif.Basic

/-!
# Plain old data fields, results and result history

Models `plainbox/impl/pod.py` (fields, assign filters, construction), the result builder of
`plainbox/impl/result.py` and the result history of `plainbox/impl/session/jobs.py`.

Simplifications: Python values are a small tree type (`Val`); floats are an opaque ordered set with
lawful equality (no NaN); user defined listeners of change signals are not run, the notification
itself is a value; docstrings, `__repr__`, ordering and class creation are not modelled.
-/

namespace Verif.Pod

/-- Python values.  `unset` is the object `UNSET` (pod.py 85-107). -/
inductive Val where
  | unset | none | bool (b : Bool) | int (i : Int) | float (q : Int) | str (s : List Char)
  | list (l : List Val) | tuple (l : List Val)
deriving Repr

mutual
/-- Equality of values is decidable (`==` of values of the same Python type). Used in pod.py:336-346. -/
def Val.decEq : (a b : Val) → Decidable (a = b)
  | .unset, .unset => .isTrue rfl
  | .none, .none => .isTrue rfl
  | .bool a, .bool b => if h : a = b then .isTrue (by rw [h]) else .isFalse (by simpa using h)
  | .int a, .int b => if h : a = b then .isTrue (by rw [h]) else .isFalse (by simpa using h)
  | .float a, .float b => if h : a = b then .isTrue (by rw [h]) else .isFalse (by simpa using h)
  | .str a, .str b => if h : a = b then .isTrue (by rw [h]) else .isFalse (by simpa using h)
  | .list a, .list b => match Val.decEqL a b with
    | .isTrue h => .isTrue (by rw [h])
    | .isFalse h => .isFalse (by simpa using h)
  | .tuple a, .tuple b => match Val.decEqL a b with
    | .isTrue h => .isTrue (by rw [h])
    | .isFalse h => .isFalse (by simpa using h)
  | .unset, .none | .unset, .bool _ | .unset, .int _ | .unset, .float _ | .unset, .str _
  | .unset, .list _ | .unset, .tuple _
  | .none, .unset | .none, .bool _ | .none, .int _ | .none, .float _ | .none, .str _
  | .none, .list _ | .none, .tuple _
  | .bool _, .unset | .bool _, .none | .bool _, .int _ | .bool _, .float _ | .bool _, .str _
  | .bool _, .list _ | .bool _, .tuple _
  | .int _, .unset | .int _, .none | .int _, .bool _ | .int _, .float _ | .int _, .str _
  | .int _, .list _ | .int _, .tuple _
  | .float _, .unset | .float _, .none | .float _, .bool _ | .float _, .int _ | .float _, .str _
  | .float _, .list _ | .float _, .tuple _
  | .str _, .unset | .str _, .none | .str _, .bool _ | .str _, .int _ | .str _, .float _
  | .str _, .list _ | .str _, .tuple _
  | .list _, .unset | .list _, .none | .list _, .bool _ | .list _, .int _ | .list _, .float _
  | .list _, .str _ | .list _, .tuple _
  | .tuple _, .unset | .tuple _, .none | .tuple _, .bool _ | .tuple _, .int _ | .tuple _, .float _
  | .tuple _, .str _ | .tuple _, .list _ => .isFalse (by simp)

/-- Same for lists of values. (pod.py:336-346) -/
def Val.decEqL : (a b : List Val) → Decidable (a = b)
  | [], [] => .isTrue rfl
  | [], _ :: _ => .isFalse (by simp)
  | _ :: _, [] => .isFalse (by simp)
  | a :: as, b :: bs => match Val.decEq a b, Val.decEqL as bs with
    | .isTrue h, .isTrue h' => .isTrue (by rw [h, h'])
    | .isFalse h, _ => .isFalse (by simp [h])
    | _, .isFalse h => .isFalse (by simp [h])
end

instance : DecidableEq Val := Val.decEq

/-- Exceptions raised by the modelled code. (pod.py:371-421, 684-931) -/
inductive Err where
  | attributeError | typeError | valueError
deriving DecidableEq, Repr

/-- An assign filter: old value, new value, filtered value (pod.py 318-346, call at 334-336). -/
abbrev Filter (V : Type) := V → V → Except Err V

/-- `Field.__set__` (pod.py 318-346) for an attribute holding `old`, with the equality `eq` of the
values.  Gives the value held afterwards and the arguments of the change signal if it was fired. -/
def assign {V : Type} (eq : V → V → Bool) (filters : List (Filter V)) (notify : Bool)
    (old new : V) : Except Err (V × Option (V × V)) :=
  match filters.foldlM (fun v f => f old v) new with
  | .error e => .error e
  | .ok v =>
    if notify then
      if eq v old then .ok (old, none) else .ok (v, some (old, v))
    else .ok (v, none)

/-- The checking filters of pod.py.  Types are predicates on values. (pod.py 684-931) -/
inductive Check where
  | const                            -- read_only_assign_filter (683-709)
  | typed (t : Val → Bool)           -- type_check_assign_filter (740-765)
  | unsetOrTyped (t : Val → Bool)    -- unset_or_type_check_assign_filter (771-798)
  | seq (t : Val → Bool)             -- sequence_type_check_assign_filter (804-852)
  | unsetOrSeq (t : Val → Bool)      -- unset_or_sequence_type_check_assign_filter (858-901)
  | unique                           -- unique_elements_assign_filter (907-931)

/-- Items of an iterable value; iterating a string yields one-character strings. (pod.py:827-852, 908-931) -/
def items : Val → Option (List Val)
  | .list l => some l
  | .tuple l => some l
  | .str s => some (s.map fun c => .str [c])
  | _ => none

mutual
/-- `hash(v)` succeeds. (pod.py:908-931) -/
def hashable : Val → Bool
  | .list _ => false
  | .tuple l => hashableL l
  | _ => true

/-- All items are hashable. (pod.py:908-931) -/
def hashableL : List Val → Bool
  | [] => true
  | a :: as => hashable a && hashableL as
end

/-- The loop of `unique_elements_assign_filter` (pod.py 926-930): note `new in seen`, not
`item in seen`. -/
def uniqueLoop (new : Val) : List Val → List Val → Except Err Val
  | _, [] => .ok new
  | seen, item :: rest =>
    if hashable new = false then .error .typeError
    else if new ∈ seen then .error .valueError
    else if hashable item = false then .error .typeError
    else uniqueLoop new (seen ++ [item]) rest

/-- The filter function of a check. (pod.py:684-709, 742-765, 773-798, 804-901, 908-931) -/
def Check.run : Check → Filter Val
  | .const, old, new => if old = .unset then .ok new else .error .attributeError
  | .typed t, _, new => if t new then .ok new else .error .typeError
  | .unsetOrTyped t, _, new =>
    if new = .unset then .ok new else if t new then .ok new else .error .typeError
  | .seq t, _, new =>
    match items new with
    | none => .error .typeError
    | some l => if l.all t then .ok new else .error .typeError
  | .unsetOrSeq t, _, new =>
    if new = .unset then .ok new else
    match items new with
    | none => .error .typeError
    | some l => if l.all t then .ok new else .error .typeError
  | .unique, _, new =>
    match items new with
    | none => .error .typeError
    | some l => uniqueLoop new [] l

/-- Equality used by the change check (`!=` at pod.py 339). -/
def valEq (a b : Val) : Bool := decide (a = b)

/-- A field as declared in a class (pod.py 109-230): name, checks, notification and initial value
(`none` for `MANDATORY`).  `initial_fn` is represented by the value it returns. -/
structure Field where
  name : List Char
  checks : List Check := []
  notify : Bool := false
  initial : Option Val := some .none

/-- `Field.__set__` for such a field (pod.py 318-346). -/
def Field.set (f : Field) (old new : Val) : Except Err (Val × Option (Val × Val)) :=
  assign valEq (f.checks.map Check.run) f.notify old new

/-! ## Construction -/

/-- The attributes of an instance, in field order (pod.py 392-393 sets all to `UNSET`). -/
abbrev Obj := List (List Char × Val)

/-- Reading an attribute. (pod.py:307-316) -/
def Obj.get (o : Obj) (n : List Char) : Val := (o.lookup n).getD .unset

/-- Overwriting an attribute. (pod.py:318-346) -/
def Obj.put (o : Obj) (n : List Char) (v : Val) : Obj :=
  o.map fun p => if p.1 = n then (n, v) else p

/-- `setattr(self, field.name, value)`. (pod.py:318-346) -/
def setField (f : Field) (o : Obj) (v : Val) : Except Err Obj :=
  match f.set (o.get f.name) v with
  | .error e => .error e
  | .ok r => .ok (o.put f.name r.1)

/-- The positional loop (pod.py 398-399). -/
def initArgs : List Field → List Val → Obj → Except Err Obj
  | f :: fs, v :: vs, o => match setField f o v with
    | .error e => .error e
    | .ok o' => initArgs fs vs o'
  | _, _, o => .ok o

/-- The keyword loop (pod.py 401-408). -/
def initKwargs (cls : List Field) : List (List Char × Val) → Obj → Except Err Obj
  | [], o => .ok o
  | (n, v) :: kw, o =>
    match cls.find? (fun f => f.name = n) with
    | none => .error .typeError
    | some f =>
      if o.get n ≠ .unset then .error .typeError
      else match setField f o v with
        | .error e => .error e
        | .ok o' => initKwargs cls kw o'

/-- The loop over the remaining fields (pod.py 410-421). -/
def initDefaults : List Field → Obj → Except Err Obj
  | [], o => .ok o
  | f :: fs, o =>
    if o.get f.name ≠ .unset then initDefaults fs o
    else match f.initial with
      | none => .error .typeError
      | some v => match setField f o v with
        | .error e => .error e
        | .ok o' => initDefaults fs o'

/-- `PODBase.__init__` (pod.py 371-421). -/
def construct (cls : List Field) (args : List Val) (kw : List (List Char × Val)) :
    Except Err Obj :=
  let o : Obj := cls.map fun f => (f.name, .unset)
  if args.length > cls.length then .error .typeError
  else match initArgs cls args o with
    | .error e => .error e
    | .ok o => match initKwargs cls kw o with
      | .error e => .error e
      | .ok o => initDefaults cls o

/-- `as_dict` (pod.py 465-476). -/
def asDict (cls : List Field) (o : Obj) : List (List Char × Val) :=
  (cls.map fun f => (f.name, o.get f.name)).filter fun p => decide (p.2 ≠ .unset)

/-! ## Results and their builder -/

/-- `isinstance(v, str)`. (the types of fields, result.py:209-260; tested in pod.py:742-798) -/
def isStr : Val → Bool | .str _ => true | _ => false
/-- `isinstance(v, float)`. (the types of fields, result.py:209-260; tested in pod.py:742-798) -/
def isFloat : Val → Bool | .float _ => true | _ => false
/-- `isinstance(v, int)`; `bool` is a subclass of `int`.
(the types of fields, result.py:209-260; tested in pod.py:742-798) -/
def isInt : Val → Bool | .int _ => true | .bool _ => true | _ => false
/-- `isinstance(v, list)`. (the types of fields, result.py:209-260; tested in pod.py:742-798) -/
def isList : Val → Bool | .list _ => true | _ => false
/-- `isinstance(v, tuple)`. (the types of fields, result.py:209-260; tested in pod.py:742-798) -/
def isTuple : Val → Bool | .tuple _ => true | _ => false

/-- A field of the builder that is unset at first. (result.py:209-233) -/
def bField (n : String) (t : Val → Bool) : Field :=
  { name := n.toList, checks := [.unsetOrTyped t], initial := some .unset }

/-- `JobResultBuilder` (result.py 209-233). -/
def builderCls : List Field :=
  [bField "outcome" isStr, bField "execution_duration" isFloat, bField "comments" isStr,
   bField "return_code" isInt,
   { name := "io_log".toList, checks := [.unsetOrTyped isList, .unsetOrSeq isTuple],
     initial := some .unset },
   bField "io_log_filename" isStr]

/-- `JobResultBuilder.add_comment` (result.py 235-244); `+` of a string and anything else raises
TypeError. -/
def addComment (o : Obj) (c : Val) : Except Err Obj :=
  match o.get "comments".toList with
  | .unset => setField (bField "comments" isStr) o c
  | .str s => match c with
    | .str t => setField (bField "comments" isStr) o (.str (s ++ '\n' :: t))
    | _ => .error .typeError
  | _ => .error .typeError

/-- A job result: which class it is and its data (result.py 264-286). -/
structure Result where
  disk : Bool
  data : List (List Char × Val)
deriving DecidableEq, Repr

/-- `_JobResultBase.__init__` (result.py 272-286). -/
def mkResult (disk : Bool) (d : List (List Char × Val)) : Result :=
  ⟨disk, d.filter fun p => decide (p.2 ≠ .none) && decide (p.2 ≠ .list [])⟩

/-- `JobResultBuilder.get_result` (result.py 246-261). -/
def getResult (o : Obj) : Except Err Result :=
  if ¬ (o.get "io_log_filename".toList = .unset ∨ o.get "io_log".toList = .unset) then
    .error .valueError
  else .ok (mkResult (decide (o.get "io_log_filename".toList ≠ .unset)) (asDict builderCls o))

/-- `_JobResultBase.get_builder` without keyword arguments (result.py 288-293). -/
def getBuilder (r : Result) : Except Err Obj := construct builderCls [] r.data

/-- `is_hollow` (result.py 426-439). -/
def Result.isHollow (r : Result) : Bool := r.data.isEmpty

/-- `_JobResultBase.__eq__` (result.py 295-298): only the data counts. -/
def Result.eq (a b : Result) : Bool := decide (a.data = b.data)

/-! ## Result history -/

/-- The two fields of `JobState` concerned: `result` and `result_history` (jobs.py 303-312). -/
structure JobResults where
  result : Result
  history : List Result
deriving DecidableEq, Repr

/-- State after construction (jobs.py 303-312): a hollow result and no history; the notification
with old value `UNSET` is ignored (jobs.py 352-354). -/
def JobResults.init : JobResults := ⟨mkResult false [], []⟩

/-- Assignment to `JobState.result` (the field is declared with notification and no filters, jobs.py
303-307) followed by `_result_changed` (jobs.py 350-362). -/
def JobResults.assign (s : JobResults) (r : Result) : JobResults :=
  match Pod.assign Result.eq [] true s.result r with
  | .error _ => s
  | .ok (v, none) => { s with result := v }
  | .ok (v, some (_, new)) =>
    { result := v, history := if new.isHollow then s.history else s.history ++ [new] }

end Verif.Pod
