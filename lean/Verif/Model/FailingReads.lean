import Verif.Model.Failing
import Verif.Model.Project
/-!
# `rebulk/match.py`: reading results when a formatter raises

`match.value` (`match.py:1072-1083`) calls the formatter, which is user code and may raise. This module is `to_dict`, typed access, `to` and
`check_declared_keys` again (`Model/Project.lean`), with reads and comparisons that may raise. `broken m` is the exception raised when the value of `m` is
read, if any. Simplification: as in `Model/Failing.lean`, the values of parents do not raise; comparing two values does not raise either.
-/
namespace Rebulk

/-- `match.value` (`match.py:1072-1083`). -/
def valueF (broken : Match → Option Nat) (m : Match) : Except PyErr Val :=
  match broken m with
  | some n => .error (.user n)
  | none => .ok m.value

/-- `[match.value for match in l]`. -/
def valuesF (broken : Match → Option Nat) : List Match → Except PyErr (List Val)
  | [] => .ok []
  | m :: ms => match valueF broken m with
    | .error e => .error e
    | .ok v => match valuesF broken ms with
      | .error e => .error e
      | .ok vs => .ok (v :: vs)

/-- `y == m` between matches (`match.py:1303-1311`), written `==` in the code: unlike `in`, it does not ask first whether they are the same object. -/
def matchEqF (broken : Match → Option Nat) (m y : Match) : Except PyErr Bool :=
  if y.span == m.span then
    match broken y with
    | some n => .error (.user n)
    | none => match broken m with
      | some n => .error (.user n)
      | none => .ok (y.eqv m)
  else .ok false

/-- `x == y` between stored items. -/
def DV.eqF (broken : Match → Option Nat) (h : ListHeap) : DV → DV → Except PyErr Bool
  | .mtch a, .mtch b => matchEqF broken b a
  | x, y => .ok (DV.eqIn h x y)

/-- One comparison of `in`: `item is x or item == x`. -/
def DV.sameF (broken : Match → Option Nat) (h : ListHeap) : DV → DV → Except PyErr Bool
  | .mtch a, .mtch b => eqvF broken b a
  | x, y => .ok (DV.eqIn h x y)

/-- `x in l`. -/
def DV.elemF (broken : Match → Option Nat) (h : ListHeap) (x : DV) : List DV → Except PyErr Bool
  | [] => .ok false
  | y :: l => match DV.sameF broken h y x with
    | .error e => .error e
    | .ok true => .ok true
    | .ok false => DV.elemF broken h x l

/-- Lines `match.py:801-802`. -/
def addValuesListF (broken : Match → Option Nat) (enforceList : Bool) (s : MDict) (n : Option String) (d : DV) : Except PyErr MDict :=
  if enforceList then .ok s
  else
    match DV.elemF broken s.heap d ((s.valuesList.touch n).getList n) with
    | .error e => .error e
    | .ok true => .ok { s with valuesList := s.valuesList.touch n }
    | .ok false => .ok { s with valuesList := (s.valuesList.touch n).append n d }

/-- Lines `match.py:803-817`. -/
def addEntryF (broken : Match → Option Nat) (firstValue enforceList : Bool) (s : MDict) (n : Option String) (d : DV) : Except PyErr MDict :=
  match s.ret.get? n with
  | some e =>
    if firstValue then .ok s
    else match e with
      | .one x => match DV.eqF broken s.heap x d with
        | .error e => .error e
        | .ok true => .ok s
        | .ok false => .ok { s with ret := s.ret.set n (.own [x, d]) }
      | .own l => match DV.elemF broken s.heap d l with
        | .error e => .error e
        | .ok true => .ok s
        | .ok false => .ok { s with ret := s.ret.set n (.own (l ++ [d])) }
      | .alias a => match DV.elemF broken s.heap d ((s.heap a).map .val) with
        | .error e => .error e
        | .ok true => .ok s
        | .ok false => .ok { s with heap := fun i => if i = a then s.heap a ++ [d.toVal s.heap] else s.heap i }
  | none => .ok { s with ret := s.ret.set n (mkEntry enforceList d) }

/-- `match if details else match.value` (`match.py:799`). -/
def shownF (broken : Match → Option Nat) (addr : Match → Option Nat) (details : Bool) (h : ListHeap) (m : Match) : Except PyErr DV :=
  if details then .ok (.mtch m)
  else match broken m with
    | some n => .error (.user n)
    | none => .ok (m.valueIn h addr)

/-- Body of the loop (`match.py:799-817`). -/
def toDictStepF (broken : Match → Option Nat) (addr : Match → Option Nat) (details firstValue enforceList : Bool) (s : MDict) (m : Match) :
    Except PyErr MDict :=
  match shownF broken addr details s.heap m with
  | .error e => .error e
  | .ok d =>
    match addValuesListF broken enforceList { s with matchesD := s.matchesD.append m.name m } m.name d with
    | .error e => .error e
    | .ok s => addEntryF broken firstValue enforceList s m.name d

/-- The loop (`match.py:798-817`). -/
def toDictLoopF (broken : Match → Option Nat) (addr : Match → Option Nat) (details firstValue enforceList : Bool) :
    List Match → MDict → Except PyErr MDict
  | [], s => .ok s
  | m :: ms, s => match toDictStepF broken addr details firstValue enforceList s m with
    | .error e => .error e
    | .ok s => toDictLoopF broken addr details firstValue enforceList ms s

namespace Matches

/-- `to_dict` (`match.py:783-818`). -/
def toDictF (broken : Match → Option Nat) (s : Matches) (h : ListHeap) (addr : Match → Option Nat) (details firstValue enforceList : Bool) :
    Except PyErr MDict :=
  toDictLoopF broken addr details firstValue enforceList (pySorted Match.lt s.delegate) { heap := h }

/-- `matches[key]` (`match.py:833-835`). -/
def getKeyF (broken : Match → Option Nat) (s : Matches) (k : Key) : Matches × Except PyErr (Option Val) :=
  let (s, named) := s.lookName k.name
  (s, match named with
    | [] => .ok none
    | m :: _ => match valueF broken m with
      | .error e => .error e
      | .ok v => .ok (some v))

/-- `matches.all(key)` (`match.py:841-845`). -/
def allKeyF (broken : Match → Option Nat) (s : Matches) (k : Key) : Matches × Except PyErr (List Val) :=
  let (s, named) := s.lookName k.name
  (s, valuesF broken named)

end Matches

/-- The loop over the fields (`match.py:897-910`): the declared key is compared with the field before its values are read, and all the values of the
field are read even when only the first is kept. -/
def toLoopF (broken : Match → Option Nat) (env : ClassEnv) (declared : Dict String Key) :
    List Field → Matches → Dict String FieldVal → Except PyErr (Matches × Dict String FieldVal)
  | [], s, kw => .ok (s, kw)
  | f :: fs, s, kw =>
    if fieldContradicts env declared f then .error .typeError
    else
      let (s, named) := s.lookName f.name
      match valuesF broken named with
      | .error e => .error e
      | .ok values =>
        if f.hint.isListHint then toLoopF broken env declared fs s (kw.set f.name (.all values))
        else match values with
          | v :: _ => toLoopF broken env declared fs s (kw.set f.name (.one v))
          | [] => toLoopF broken env declared fs s kw

/-- `to(model)` (`match.py:847-911`). -/
def Matches.toF (broken : Match → Option Nat) (env : ClassEnv) (declared : Dict String Key) (s : Matches) : Model → Except PyErr Projected
  | .listOf structured =>
    if structured then .error .typeError
    else match valuesF broken s.delegate with
      | .error e => .error e
      | .ok vs => .ok (.values vs)
  | .dataclass fields =>
    match toLoopF broken env declared fields s [] with
    | .error e => .error e
    | .ok (_, kw) => (construct kw fields).map .record
  | .typedDict fields =>
    match toLoopF broken env declared fields s [] with
    | .error e => .error e
    | .ok (_, kw) => .ok (.record kw)
  | .cls _ =>
    match s.delegate with
    | [] => .error .lookupError
    | m :: _ => match valueF broken m with
      | .error e => .error e
      | .ok v => .ok (.value v)
  | .other => .error .typeError

/-- `check_declared_keys` (`match.py:913-950`): the value is read only when the declared key is to be checked. -/
def checkDeclaredKeysF (broken : Match → Option Nat) (isinstance : Val → Nat → Bool) (declared : Dict String Key) : List Match → Option PyErr
  | [] => none
  | m :: ms =>
    match declaredFor declared m with
    | none => checkDeclaredKeysF broken isinstance declared ms
    | some k =>
      if m.priv || m.hasLiteralValue then checkDeclaredKeysF broken isinstance declared ms
      else match valueF broken m with
        | .error e => some e
        | .ok v =>
          if decide (v = .none) || isinstance v k.valueType then checkDeclaredKeysF broken isinstance declared ms
          else some .typeError

end Rebulk
