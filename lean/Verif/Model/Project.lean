import Verif.Model.Matches
/-!
# `rebulk/match.py`: `to_dict`, typed access, `to`, `check_declared_keys`
-/
namespace Rebulk

/-! ## `to_dict` -/

/-- What `to_dict` stores for a match: the match itself (`details=True`), its value, or — a value that is a list object stored
in the match as literal value — a reference to that list object. -/
inductive DV where
  | mtch (m : Match)
  | val (v : Val)
  | ref (a : Nat)

/-- Contents of the list objects. -/
abbrev ListHeap := Nat → List Val

/-- `match.value` (`match.py:1072-1083`) when literal lists are objects of a heap: `addr m` is the list object stored as literal
value of `m`, if its literal value is a list. An empty list is falsy. -/
def Match.valueIn (h : ListHeap) (addr : Match → Option Nat) (m : Match) : DV :=
  match addr m with
  | some a =>
    if !(h a).isEmpty then .ref a
    else .val (match m.formatter with | some f => f m.raw | none => m.raw)
  | none => .val m.value

/-- The Python value a stored item denotes, given the current contents of the list objects. -/
def DV.deref (h : ListHeap) : DV → Match ⊕ Val
  | .mtch m => .inl m
  | .val v => .inr v
  | .ref a => .inr (.list (h a))

/-- Python `==` between two stored items. -/
def DV.eqIn (h : ListHeap) (x y : DV) : Bool :=
  match x.deref h, y.deref h with
  | .inl a, .inl b => a.eqv b
  | .inr a, .inr b => decide (a = b)
  | _, _ => false

/-- `x in l`. -/
def DV.elem (h : ListHeap) (x : DV) (l : List DV) : Bool := l.any (fun y => DV.eqIn h y x)

/-- The content of an item appended to a list object.
Simplification: a list object appended to a list object is copied, not aliased; a match never gets there (`details=True` has no
list object). -/
def DV.toVal (h : ListHeap) : DV → Val
  | .val v => v
  | .ref a => .list (h a)
  | .mtch m => .obj m.id

/-- A value of the resulting dict: a single item, a list made by `to_dict` (or by a formatter), or an aliased list object. -/
inductive Entry where
  | one (d : DV)
  | own (l : List DV)
  | alias (a : Nat)

/-- `MatchesDict` (`match.py:81-94`), with the list objects. -/
structure MDict where
  ret : Dict (Option String) Entry := []
  matchesD : Dict (Option String) (List Match) := []
  valuesList : Dict (Option String) (List DV) := []
  heap : ListHeap

/-- The first entry of a name (`match.py:814-817`). Simplification: a list made by a formatter gets no address, so that `values_list`
holds its contents as they were (a literal list, which has an address, is shared). -/
def mkEntry (enforceList : Bool) : DV → Entry
  | .ref a => .alias a
  | .val (.list l) => .own (l.map .val)
  | d => if enforceList then .own [d] else .one d

/-- Lines `match.py:801-802`. -/
def addValuesList (enforceList : Bool) (s : MDict) (n : Option String) (d : DV) : MDict :=
  if enforceList then s
  else
    let vl := s.valuesList.touch n
    if DV.elem s.heap d (vl.getList n) then { s with valuesList := vl } else { s with valuesList := vl.append n d }

/-- Lines `match.py:803-817`. -/
def addEntry (firstValue enforceList : Bool) (s : MDict) (n : Option String) (d : DV) : MDict :=
  match s.ret.get? n with
  | some e =>
    if firstValue then s
    else match e with
      | .one x => if DV.eqIn s.heap x d then s else { s with ret := s.ret.set n (.own [x, d]) }
      | .own l => if DV.elem s.heap d l then s else { s with ret := s.ret.set n (.own (l ++ [d])) }
      | .alias a =>
        if DV.elem s.heap d ((s.heap a).map .val) then s
        else { s with heap := fun i => if i = a then s.heap a ++ [d.toVal s.heap] else s.heap i }
  | none => { s with ret := s.ret.set n (mkEntry enforceList d) }

/-- Body of the loop (`match.py:799-817`). -/
def toDictStep (addr : Match → Option Nat) (details firstValue enforceList : Bool) (s : MDict) (m : Match) : MDict :=
  let d := if details then .mtch m else m.valueIn s.heap addr
  let s := { s with matchesD := s.matchesD.append m.name m }
  addEntry firstValue enforceList (addValuesList enforceList s m.name d) m.name d

/-- `to_dict` (`match.py:783-818`). -/
def Matches.toDict (s : Matches) (h : ListHeap) (addr : Match → Option Nat) (details firstValue enforceList : Bool) : MDict :=
  (pySorted Match.lt s.delegate).foldl (toDictStep addr details firstValue enforceList) { heap := h }

/-! ## Typed keys -/

/-- `rebulk.key.Key` (`key.py:44-46`), for `value_type`s that are classes. -/
structure Key where
  name : String
  valueType : Nat
  formatter : Option Nat := none

/-- `matches[key]` (`match.py:833-835`). -/
def Matches.getKey (s : Matches) (k : Key) : Matches × Option Val :=
  let (s, named) := s.lookName k.name
  (s, named.head?.map Match.value)

/-- `matches.all(key)` (`match.py:841-845`). -/
def Matches.allKey (s : Matches) (k : Key) : Matches × List Val :=
  let (s, named) := s.lookName k.name
  (s, named.map Match.value)

/-! ## Type hints and models -/

/-- A type annotation, classes being numbered. `list none` is an unparameterised `typing.List`. `other` is anything else
(type variables, other generics). -/
inductive Hint where
  | any
  | list (arg : Option Hint)
  | union (args : List Hint)
  | cls (c : Nat)
  | other

/-- What the code asks about classes: `issubclass`, `issubclass(c, (list, tuple, set, frozenset, dict))`, and `type(None)`. -/
structure ClassEnv where
  sub : Nat → Nat → Bool
  container : Nat → Bool
  noneType : Nat

/-- `arg is type(None)`. -/
def Hint.isNoneType (env : ClassEnv) : Hint → Bool
  | .cls c => c == env.noneType
  | _ => false

mutual
/-- `_element_type` (`match.py:41-63`). -/
def elementType (env : ClassEnv) : Hint → Option Nat
  | .any => none
  | .list none => none
  | .list (some h) => elementType env h
  | .union args =>
    match elementTypes env args with
    | [r] => r
    | _ => none
  | .cls c => if env.container c then none else some c
  | .other => none
/-- `_element_type` of the arguments of a union that are not `type(None)` (`match.py:59-60`). -/
def elementTypes (env : ClassEnv) : List Hint → List (Option Nat)
  | [] => []
  | h :: hs => if h.isNoneType env then elementTypes env hs else elementType env h :: elementTypes env hs
end

/-- `_contradicts` (`match.py:66-78`). -/
def contradicts (env : ClassEnv) (hint : Hint) (declared : Nat) : Bool :=
  match elementType env hint with
  | none => false
  | some e => !(env.sub e declared || env.sub declared e)

/-- A field of a dataclass or `TypedDict`. `dflt` is the default of a dataclass field. -/
structure Field where
  name : String
  hint : Hint
  dflt : Option Val := none

/-- The argument of `to`. `listOf structured`: `list[X]`, with `structured` when `X` is a dataclass or a `TypedDict`.
`init=False` fields, `__post_init__` and inheritance of dataclasses are not modelled. -/
inductive Model where
  | listOf (structured : Bool)
  | dataclass (fields : List Field)
  | typedDict (fields : List Field)
  | cls (c : Nat)
  | other

/-- A value passed to the model's constructor: all values (list field) or one. -/
inductive FieldVal where
  | all (l : List Val)
  | one (v : Val)

/-- `get_origin(hint) is list`. -/
def Hint.isListHint : Hint → Bool
  | .list _ => true
  | _ => false

/-- The cross-check of a field (`match.py:900-901`). -/
def fieldContradicts (env : ClassEnv) (declared : Dict String Key) (f : Field) : Bool :=
  match declared.get? f.name with
  | some k => contradicts env f.hint k.valueType
  | none => false

/-- The loop over the fields (`match.py:897-910`). -/
def toLoop (env : ClassEnv) (declared : Dict String Key) :
    List Field → Matches → Dict String FieldVal → Except PyErr (Matches × Dict String FieldVal)
  | [], s, kw => .ok (s, kw)
  | f :: fs, s, kw =>
    if fieldContradicts env declared f then .error .typeError
    else
      let (s, named) := s.lookName f.name
      let values := named.map Match.value
      if f.hint.isListHint then toLoop env declared fs s (kw.set f.name (.all values))
      else match values with
        | v :: _ => toLoop env declared fs s (kw.set f.name (.one v))
        | [] => toLoop env declared fs s kw

/-- What `to` returns. -/
inductive Projected where
  | values (l : List Val)
  | value (v : Val)
  | record (fields : List (String × FieldVal))

/-- The constructor of a dataclass: fields in order, given value or default, `TypeError` when a field has neither. -/
def construct (kw : Dict String FieldVal) : List Field → Except PyErr (List (String × FieldVal))
  | [] => .ok []
  | f :: fs =>
    match kw.get? f.name, f.dflt with
    | some v, _ => (construct kw fs).map ((f.name, v) :: ·)
    | none, some d => (construct kw fs).map ((f.name, .one d) :: ·)
    | none, none => .error .typeError

/-- `to(model)` (`match.py:847-911`); `declared` is `self.declared_keys`. -/
def Matches.to (env : ClassEnv) (declared : Dict String Key) (s : Matches) : Model → Except PyErr Projected
  | .listOf structured => if structured then .error .typeError else .ok (.values (s.delegate.map Match.value))
  | .dataclass fields =>
    match toLoop env declared fields s [] with
    | .error e => .error e
    | .ok (_, kw) => (construct kw fields).map .record
  | .typedDict fields =>
    match toLoop env declared fields s [] with
    | .error e => .error e
    | .ok (_, kw) => .ok (.record kw)
  | .cls _ =>
    match s.delegate with
    | [] => .error .lookupError
    | m :: _ => .ok (.value m.value)
  | .other => .error .typeError

/-- The declared key of a match (`match.py:941`). -/
def declaredFor (declared : Dict String Key) (m : Match) : Option Key :=
  match m.nameKey with
  | some n => declared.get? n
  | none => none

/-- `check_declared_keys` (`match.py:913-950`): `none` when it returns normally. -/
def checkDeclaredKeys (isinstance : Val → Nat → Bool) (declared : Dict String Key) : List Match → Option PyErr
  | [] => none
  | m :: ms =>
    match declaredFor declared m with
    | none => checkDeclaredKeys isinstance declared ms
    | some k =>
      if m.priv || m.hasLiteralValue then checkDeclaredKeys isinstance declared ms
      else if decide (m.value = .none) || isinstance m.value k.valueType then checkDeclaredKeys isinstance declared ms
      else some .typeError

end Rebulk
