import Verif.Model.Match
/-!
# `rebulk/utils.py`, `rebulk/toposort.py`, `rebulk/loose.py`, `rebulk/validators.py`, `rebulk/formatters.py`
-/
namespace Rebulk

/-! ## `find_all` -/

/-- `sub` occurs at index `p` of `s`. -/
def occursAt (s sub : Str) (p : Nat) : Bool := (s.drop p).take sub.length == sub

/-- CPython's adjustment of the `start` argument of `str.find`: negative values count from the end; no upper clamp. -/
def findLo (s : Str) : Option Int → Nat
  | none => 0
  | some i => if i < 0 then (i + s.length).toNat else i.toNat

/-- CPython's adjustment of the `end` argument of `str.find`. -/
def findHi (s : Str) : Option Int → Nat
  | none => s.length
  | some i => clampIdx s.length i

/-- Python `s.find(sub, start, end)`; `none` is `-1`. -/
def pyFind (s sub : Str) (start stop : Option Int) : Option Nat :=
  (List.range' (findLo s start) (findHi s stop + 1 - sub.length - findLo s start)).find? (occursAt s sub)

/-- The loop of `find_all` (`utils.py:58-63`). `none`: still running after `fuel` iterations. -/
def findAllLoop : Nat → Str → Str → Option Int → Option Int → Option (List Nat)
  | 0, _, _, _, _ => none
  | fuel + 1, s, sub, start, stop =>
    match pyFind s sub start stop with
    | none => some []
    | some p => (findAllLoop fuel s sub (some ((p : Int) + sub.length)) stop).map (p :: ·)

/-- `find_all` (`utils.py:15-63`); `lower` is `str.lower`. -/
def findAll (lower : Str → Str) (fuel : Nat) (s sub : Str) (start stop : Option Int) (ignoreCase : Bool) : Option (List Nat) :=
  if ignoreCase then findAllLoop fuel (lower s) (lower sub) start stop else findAllLoop fuel s sub start stop

/-! ## `extend_safe` -/

section ExtendSafe
variable {α : Type} (eq : α → α → Bool) (hashable : α → Bool)

/-- The loop with a set (`utils.py:119-122`); `seen` holds the elements of `target` throughout. Stops with the rest of the source
*after* the first unhashable element. -/
def extendHashed : List α → List α → List α × Option (List α)
  | target, [] => (target, none)
  | target, x :: xs =>
    if !hashable x then (target, some xs)
    else if target.any (fun y => eq y x) then extendHashed target xs
    else extendHashed (target ++ [x]) xs

/-- The fallback loop (`utils.py:124-126`). -/
def extendLinear : List α → List α → List α
  | target, [] => target
  | target, x :: xs => if target.any (fun y => eq y x) then extendLinear target xs else extendLinear (target ++ [x]) xs

/-- `extend_safe` (`utils.py:103-126`). `oneShot`: the source is an iterator, so that the fallback loop goes on where the first
loop stopped instead of starting again. -/
def extendSafe (oneShot : Bool) (target source : List α) : List α :=
  if !target.all hashable then extendLinear eq target source
  else match extendHashed eq hashable target source with
    | (target, none) => target
    | (target, some rest) => extendLinear eq target (if oneShot then rest else source)

end ExtendSafe

/-! ## `toposort` -/

section Toposort
variable {κ : Type} [DecidableEq κ]

/-- A dependency dict: items with their sets of dependencies (sets as lists). -/
abbrev Deps (κ : Type) := List (κ × List κ)

/-- `v.discard(k)` for each entry (`toposort.py:48-49`), the sets of different items being different objects. -/
def discardSelf (data : Deps κ) : Deps κ := data.map (fun kv => (kv.1, kv.2.filter (fun d => decide (d ≠ kv.1))))

/-- First occurrences. -/
def dedup : List κ → List κ
  | [] => []
  | x :: xs => x :: (dedup xs).filter (fun y => decide (y ≠ x))

/-- The dependencies that are no items (`toposort.py:51`). -/
def extraItems (data : Deps κ) : List κ :=
  (dedup (data.flatMap (fun kv => kv.2))).filter (fun d => decide (d ∉ data.map (fun kv => kv.1)))

/-- The items without dependency (`toposort.py:55`). -/
def orderedItems (data : Deps κ) : List κ := (data.filter (fun kv => kv.2.isEmpty)).map (fun kv => kv.1)

/-- The rest (`toposort.py:59`). -/
def removeOrdered (ordered : List κ) (data : Deps κ) : Deps κ :=
  (data.filter (fun kv => decide (kv.1 ∉ ordered))).map (fun kv => (kv.1, kv.2.filter (fun d => decide (d ∉ ordered))))

/-- The loop (`toposort.py:54-61`): groups yielded, and the remaining entries when it ends (an error if there are some).
`none`: still running after `fuel` iterations. -/
def topoLoop : Nat → Deps κ → Option (List (List κ) × Deps κ)
  | 0, _ => none
  | fuel + 1, data =>
    let ordered := orderedItems data
    if ordered.isEmpty then some ([], data)
    else (topoLoop fuel (removeOrdered ordered data)).map (fun r => (ordered :: r.1, r.2))

/-- `toposort` after the self-dependencies were discarded (`toposort.py:50-61`). -/
def topoFrom (fuel : Nat) (data : Deps κ) : Option (List (List κ) × Option PyErr) :=
  (topoLoop fuel (data ++ (extraItems data).map (fun d => (d, [])))).map
    (fun r => (r.1, if r.2.isEmpty then none else some .cyclicDependency))

/-- `toposort` (`toposort.py:27-61`), for the caller that consumes all of it: the groups yielded and the exception raised. -/
def toposort (fuel : Nat) (data : Deps κ) : Option (List (List κ) × Option PyErr) :=
  if data.isEmpty then some ([], none) else topoFrom fuel (discardSelf data)

/-- `v.discard(k)` on set objects: the dict holds references to the caller's sets (`toposort.py:45-49`). -/
def discardSelfStore (data : List (κ × Nat)) (sets : Nat → List κ) : Nat → List κ :=
  data.foldl (fun sets ka i => if i = ka.2 then (sets i).filter (fun d => decide (d ≠ ka.1)) else sets i) sets

/-- `toposort` on the caller's objects: what the sets contain afterwards, and the outcome. -/
def toposortStore (fuel : Nat) (data : List (κ × Nat)) (sets : Nat → List κ) :
    (Nat → List κ) × Option (List (List κ) × Option PyErr) :=
  if data.isEmpty then (sets, some ([], none))
  else
    let sets := discardSelfStore data sets
    (sets, topoFrom fuel (data.map (fun ka => (ka.1, sets ka.2))))

/-- `toposort_flatten` (`toposort.py:64-80`) when no error is raised; `arrange` is `sorted` or the iteration order of the set. -/
def toposortFlatten (fuel : Nat) (arrange : List κ → List κ) (data : Deps κ) : Option (Except PyErr (List κ)) :=
  (toposort fuel data).map (fun r => match r.2 with | some e => .error e | none => .ok (r.1.flatMap arrange))

end Toposort

/-! ## `set_defaults` -/

mutual
/-- A value of a keyword dict: a plain value, a list, or a dict. -/
inductive KV where
  | val (v : Val)
  | list (l : List Val)
  | dict (d : KVs)
/-- A keyword dict, in insertion order. -/
inductive KVs where
  | nil
  | cons (k : String) (v : KV) (r : KVs)
end

namespace KVs
/-- `d.get(k)`. -/
def get? : KVs → String → Option KV
  | .nil, _ => none
  | .cons k' v r, k => if k' = k then some v else r.get? k
/-- `d[k] = v`. -/
def set : KVs → String → KV → KVs
  | .nil, k, v => .cons k v .nil
  | .cons k' v' r, k, v => if k' = k then .cons k' v r else .cons k' v' (r.set k v)
/-- `d.keys()`. -/
def keys : KVs → List String
  | .nil => []
  | .cons k _ r => k :: r.keys
/-- `d.pop(k, None)`, what is left. -/
def erase : KVs → String → KVs
  | .nil, _ => .nil
  | .cons k' v r, k => if k' = k then r else .cons k' v (r.erase k)
end KVs

/-- The default stored by `kwargs[key] = value` when the key was there: a dict default has lost its `clear` key in the recursive
call (`loose.py:182, 189, 191`). -/
def KV.popped : KV → KV → KV
  | .dict d, .dict _ => .dict (d.erase "clear")
  | v, _ => v

/-- Truthiness of a keyword value. -/
def KV.truthy : KV → Bool
  | .val v => v.truthy
  | .list l => !l.isEmpty
  | .dict .nil => false
  | .dict _ => true

/-- `"clear" in defaults and defaults.pop("clear")` (`loose.py:182`). -/
def clears (defaults : KVs) : Bool :=
  match defaults.get? "clear" with
  | some v => v.truthy
  | none => false

mutual
/-- `set_defaults` (`loose.py:169-191`), as a function of the contents (aliasing: `Model/Builder.lean`). -/
def setDefaults (defaults kwargs : KVs) (override : Bool) : KVs :=
  setDefaultsLoop defaults (if clears defaults then .nil else kwargs) override
/-- The loop (`loose.py:184-191`); the key `clear` was popped before. -/
def setDefaultsLoop : KVs → KVs → Bool → KVs
  | .nil, kwargs, _ => kwargs
  | .cons key value rest, kwargs, override =>
    if key = "clear" then setDefaultsLoop rest kwargs override
    else
      match kwargs.get? key with
      | none => setDefaultsLoop rest (kwargs.set key value) override
      | some cur =>
        let merged := kwargs.set key (mergeValue value cur)
        setDefaultsLoop rest (if override then merged.set key (value.popped cur) else merged) override
/-- What becomes of an existing value (`loose.py:186-189`). -/
def mergeValue : KV → KV → KV
  | .list a, .list b => .list (a ++ b)
  | .dict d, .dict e => .dict (setDefaultsLoop d (if clears d then .nil else e) false)
  | _, cur => cur
end

/-! ## `call` -/

/-- What the code reads from a signature (`inspect.FullArgSpec`), and the keyword-only parameters, which it ignores. -/
structure ArgSpec where
  args : List String
  varargs : Bool
  varkw : Bool
  kwonly : List String

/-- `argspec_args` (`loose.py:82-99`). -/
def argspecArgs {α : Type} (spec : ArgSpec) (constructor : Bool) (args : List α) (kwargs : Dict String α) :
    List α × Dict String α :=
  (if spec.varargs then args else pySlice args none (some ((spec.args.length : Int) - (if constructor then 1 else 0))),
   if spec.varkw then kwargs else kwargs.filter (fun kv => spec.args.contains kv.1))

/-- The arguments `call` passes on (`loose.py:29-45`): `ignore_unused=True` travels with the keywords. -/
def callArgs {α : Type} (spec : ArgSpec) (isClass : Bool) (true_ : α) (args : List α) (kwargs : Dict String α) :
    List α × Dict String α :=
  argspecArgs spec isClass args (("ignore_unused", true_) :: kwargs)

/-! ## Validators and formatters -/

/-- `chars_before` (`validators.py:18-31`). -/
def charsBefore (chars : Str) (m : Match) (input : Str) : Except PyErr Bool :=
  if m.start ≤ 0 then .ok true
  else match pyGet input (m.start - 1) with
    | some c => .ok (chars.contains c)
    | none => .error .indexError

/-- `chars_after` (`validators.py:34-48`). -/
def charsAfter (chars : Str) (m : Match) (input : Str) : Except PyErr Bool :=
  if m.stop ≥ (input.length : Int) then .ok true
  else match pyGet input m.stop with
    | some c => .ok (chars.contains c)
    | none => .error .indexError

/-- `chars_surround` (`validators.py:51-62`). -/
def charsSurround (chars : Str) (m : Match) (input : Str) : Except PyErr Bool :=
  match charsBefore chars m input with
  | .ok true => charsAfter chars m input
  | r => r

/-- `validators` (`validators.py:65-78`). -/
def validators (vs : List (Match → Bool)) (m : Match) : Bool := vs.all (fun v => v m)

/-- `formatters` (`formatters.py:16-30`). -/
def formatters (fs : List (Val → Val)) (v : Val) : Val := fs.foldl (fun v f => f v) v

end Rebulk
