import Verif.Model.Utils
/-!
# `rebulk/builder.py`: defaults, keys and pattern building, on a heap of dicts

Building patterns passes keyword dicts around by reference; an address stands for a dict object. Values other than dicts are
never modified in place by this code, so they are plain values. Dict keys are strings; the key `None` of `{None: formatter}`
(`loose.py:138`) is written `""` (no match has the empty string as a looked up name, `pattern.py:234`).
-/
namespace Rebulk

/-- The address of a dict object. -/
notation "Addr" => Nat

/-- A keyword value: a plain object, a list, or a reference to a dict object. -/
inductive HV where
  | atom (v : Val)
  | list (l : List Val)
  | ref (a : Addr)
  deriving DecidableEq

/-- The contents of a dict object. -/
abbrev HDict := Dict String HV

/-- The dict objects; an address is an index. -/
abbrev DHeap := List HDict

namespace DHeap
/-- The contents of a dict object. -/
def at_ (h : DHeap) (a : Addr) : HDict := h.getD a []
/-- Change the contents of a dict object. -/
def put (h : DHeap) (a : Addr) (d : HDict) : DHeap := h.set a d
/-- A new dict object. -/
def alloc (h : DHeap) (d : HDict) : DHeap × Addr := (h ++ [d], h.length)
end DHeap

/-- Truthiness of a keyword value. -/
def HV.truthy (h : DHeap) : HV → Bool
  | .atom v => v.truthy
  | .list l => !l.isEmpty
  | .ref a => !(h.at_ a).isEmpty

/-- `d.pop(k, None)`, what is left. -/
def HDict.pop (d : HDict) (k : String) : HDict := d.filter (fun kv => !(kv.1 == k))

/-- `"clear" in defaults and defaults.pop("clear")` (`loose.py:182`). -/
def popClear (h : DHeap) (d : Addr) : DHeap × Bool :=
  match (h.at_ d).get? "clear" with
  | none => (h, false)
  | some v => (h.put d (HDict.pop (h.at_ d) "clear"), v.truthy h)

/-- One iteration of the loop of `set_defaults` (`loose.py:184-191`); `rec_` is the recursive call. -/
def defaultKeyH (rec_ : Addr → Addr → DHeap → Option DHeap) (defaults kwargs : Addr) (override : Bool) (h : DHeap)
    (key : String) : Option DHeap :=
  match (h.at_ defaults).get? key with
  | none => some h
  | some value =>
    match (h.at_ kwargs).get? key with
    | none => some (h.put kwargs ((h.at_ kwargs).set key value))
    | some cur =>
      (match value, cur with
        | .list a, .list b => some (h.put kwargs ((h.at_ kwargs).set key (.list (a ++ b))))
        | .ref d, .ref e => rec_ d e h
        | _, _ => some h).map
      (fun (h : DHeap) => if override then h.put kwargs ((h.at_ kwargs).set key value) else h)

/-- `set_defaults` (`loose.py:169-191`); `none` when the recursion is deeper than `fuel` (it need not end on cyclic dicts).
Simplification: the keys iterated over are those at the start of the loop. -/
def setDefaultsH : Nat → Addr → Addr → Bool → DHeap → Option DHeap
  | 0, _, _, _, _ => none
  | fuel + 1, defaults, kwargs, override, h =>
    let hc := popClear h defaults
    let h := if hc.2 then hc.1.put kwargs [] else hc.1
    ((h.at_ defaults).keys).foldlM
      (defaultKeyH (fun d e h => setDefaultsH fuel d e false h) defaults kwargs override) h

/-! ## Keys -/

/-- A `Key` (`key.py:19-53`) with the token of its `converter`. -/
structure BKey where
  name : String
  converter : Nat

/-- The `key=` argument: absent, a `Key`, or a sequence of keys. -/
inductive KeyArg where
  | absent
  | one (k : BKey)
  | many (ks : List BKey)

/-- A converter as a keyword value. -/
def BKey.conv (k : BKey) : HV := .atom (.obj k.converter)

/-- The per-name formatter dict built from a sequence of keys (`builder.py:61-62`). -/
def addConverters (formatter : HDict) (ks : List BKey) : HDict :=
  ks.foldl (fun d k => Dict.setDefault d k.name k.conv) formatter

/-- The formatter dict a sequence of keys starts from (`builder.py:51-60`). -/
def keysBase (kw : HDict) (h : DHeap) : Except PyErr HDict :=
  match kw.get? "formatter" with
  | none => .ok []
  | some (.atom .none) => .ok []
  | some (.ref a) => .ok (h.at_ a)
  | some _ => .error .typeError

/-- `_apply_key` (`builder.py:30-64`). -/
def applyKey (key : KeyArg) (kw : HDict) (h : DHeap) : Except PyErr (HDict × DHeap) :=
  match key with
  | .absent => .ok (kw, h)
  | .one k => .ok (Dict.setDefault (Dict.setDefault kw "name" (.atom (.str k.name.toList))) "formatter" k.conv, h)
  | .many [] => .ok (kw, h)
  | .many ks =>
    match keysBase kw h with
    | .error e => .error e
    | .ok base =>
      let (h, a) := h.alloc (addConverters base ks)
      .ok (kw.set "formatter" (.ref a), h)

/-! ## `PatternFactory` -/

/-- Which defaults a call is about (`builder.py:93-99`). -/
inductive Slot where
  | base | regex | string | functional | chain
  deriving DecidableEq

/-- A `PatternFactory` (`builder.py:93-99`). -/
structure Factory where
  base : Addr
  regex : Addr
  string : Addr
  functional : Addr
  chain : Addr
  keys : Dict String Nat := []

/-- The dict of defaults of a slot. -/
def Factory.slot (f : Factory) : Slot → Addr
  | .base => f.base
  | .regex => f.regex
  | .string => f.string
  | .functional => f.functional
  | .chain => f.chain

/-- What a pattern keeps of its configuration: its keyword dict and its `formatters` dict (`pattern.py:131`, `440`). -/
structure PatCfg where
  kwargs : Addr
  formatters : Addr

/-- The dicts, the builders, and the patterns built so far. -/
structure World where
  heap : DHeap
  factories : List Factory
  patterns : List PatCfg

/-- `kwargs.pop("overrides")` and the backup (`builder.py:74-78`); `none` is `KeyError`. Simplification: an
`overrides` that is not a list counts as an empty list. -/
def popOverrides (kw : HDict) : Option (HDict × HDict) :=
  match kw.get? "overrides" with
  | some (.list ks) =>
    let kw := HDict.pop kw "overrides"
    (ks.mapM (fun (v : Val) => match v with
      | .str s => (kw.get? (String.ofList s)).map (fun x => (String.ofList s, x))
      | _ => none)).map (fun backup => (kw, backup))
  | _ => some (HDict.pop kw "overrides", [])

/-- The abbreviations applied to a dict given as a regular expression (`pattern.py:481-484`); `expand` is the replacement. -/
def expandPatternDict (expand : List Val → HV → HV) (abbreviations : Option HV) (h : DHeap) (arg : HV) : DHeap :=
  match abbreviations, arg with
  | some (.list (x :: xs)), .ref a =>
    match (h.at_ a).get? "pattern" with
    | some p => h.put a ((h.at_ a).set "pattern" (expand (x :: xs) p))
    | none => h
  | _, _ => h

/-- `Pattern.__init__` for the options that matter here (`pattern.py:131` with `ensure_dict`, `loose.py:133-139`;
`pattern.py:440`, `471`): the keyword dict is a copy, a dict formatter is kept by reference. -/
def newPattern (h : DHeap) (kw : HDict) : DHeap × PatCfg :=
  let (h, p) := h.alloc kw
  match kw.get? "formatter" with
  | some (.ref a) =>
    if (h.at_ a).isEmpty then
      let (h, f) := h.alloc []
      (h, ⟨p, f⟩)
    else (h, ⟨p, a⟩)
  | some v =>
    let (h, f) := h.alloc (if v.truthy h then [("", v)] else [])
    (h, ⟨p, f⟩)
  | none =>
    let (h, f) := h.alloc []
    (h, ⟨p, f⟩)

/-- Whether the pattern has a single callable formatter (`pattern._default_formatter is not default_formatter`). -/
def hasBareFormatter (h : DHeap) (kw : HDict) : Bool :=
  match kw.get? "formatter" with
  | some (.ref _) => false
  | some v => v.truthy h
  | none => false

/-- `_inherit_keys` (`builder.py:116-132`). -/
def inheritKeys (keys : Dict String Nat) (bare : Bool) (h : DHeap) (p : PatCfg) : DHeap × PatCfg :=
  if keys.isEmpty || bare then (h, p)
  else
    let missing := keys.filter (fun k => !(Dict.contains (h.at_ p.formatters) k.1))
    if missing.isEmpty then (h, p)
    else
      let (h, f) := h.alloc (h.at_ p.formatters ++ missing.map (fun k => (k.1, HV.atom (.obj k.2))))
      (h, { p with formatters := f })

/-- `build_re`, `build_string`, `build_functional`, `build_chain` after `_apply_key` (`builder.py:169-207`). -/
def buildPattern (expand : List Val → HV → HV) (fuel : Nat) (f : Factory) (slot : Slot) (args : List HV) (kw : HDict)
    (h : DHeap) : Option (DHeap × PatCfg) :=
  match popOverrides kw with
  | none => none
  | some (kw, backup) =>
    let (h, a) := h.alloc kw
    match setDefaultsH fuel (f.slot slot) a false h with
    | none => none
    | some h =>
      match setDefaultsH fuel f.base a false h with
      | none => none
      | some h =>
        let h := h.put a (Dict.update (h.at_ a) backup)
        let kw := h.at_ a
        let h := if slot = .regex then args.foldl (expandPatternDict expand (kw.get? "abbreviations")) h else h
        let (h, p) := newPattern h kw
        some (inheritKeys f.keys (hasBareFormatter h kw) h p)

/-- The copy of one entry; `rec_` copies a dict. -/
def deepCopyEntry (rec_ : Addr → DHeap → Option (DHeap × Addr)) (acc : DHeap × HDict) (kv : String × HV) :
    Option (DHeap × HDict) :=
  match kv.2 with
  | .ref b =>
    match rec_ b acc.1 with
    | none => none
    | some r => some (r.1, acc.2 ++ [(kv.1, HV.ref r.2)])
  | v => some (acc.1, acc.2 ++ [(kv.1, v)])

/-- `copy.deepcopy` of a dict of defaults (`builder.py:295-299`). Simplification: sharing between the copied dicts is not kept, and
objects other than dicts and lists are not copied. -/
def deepCopyH : Nat → Addr → DHeap → Option (DHeap × Addr)
  | 0, _, _ => none
  | fuel + 1, a, h =>
    match (h.at_ a).foldlM (deepCopyEntry (fun b h => deepCopyH fuel b h)) (h, []) with
    | none => none
    | some r => some (r.1.alloc r.2)

/-- `_inherit_defaults` (`builder.py:294-300`). -/
def inheritDefaults (fuel : Nat) (src : Factory) (h : DHeap) : Option (DHeap × Factory) := do
  let (h, base) ← deepCopyH fuel src.base h
  let (h, regex) ← deepCopyH fuel src.regex h
  let (h, functional) ← deepCopyH fuel src.functional h
  let (h, string) ← deepCopyH fuel src.string h
  let (h, chain) ← deepCopyH fuel src.chain h
  pure (h, { base, regex, string, functional, chain, keys := src.keys })

/-- `PatternFactory.__init__` (`builder.py:93-99`). -/
def newFactory (h : DHeap) : DHeap × Factory :=
  (h ++ [[], [], [], [], []],
    { base := h.length, regex := h.length + 1, string := h.length + 2, functional := h.length + 3, chain := h.length + 4 })

/-- What a program does with builders. `f` is the number of a builder. -/
inductive BOp where
  /-- The caller makes a dict. -/
  | dict (d : HDict)
  /-- A new builder (`builder.py:93`). -/
  | builder
  /-- `defaults(**kw)`, `regex_defaults(**kw)`, … (`builder.py:134-167`). -/
  | defaults (f : Nat) (slot : Slot) (kw : HDict)
  /-- `regex(...)`, `string(...)`, `functional(...)` (`builder.py:230-264`, `307-323`). -/
  | build (f : Nat) (slot : Slot) (key : KeyArg) (args : List HV) (kw : HDict)
  /-- `chain(**kw)` (`builder.py:266-277`, `325-333`). -/
  | chain (f : Nat) (kw : HDict)
  /-- `declare_keys(*keys)` (`builder.py:101-114`). -/
  | declareKeys (f : Nat) (keys : List BKey)
  /-- `reset()` (`builder.py:216-220`). -/
  | reset (f : Nat)

/-- One operation; `none` when it raises or its recursion is deeper than `fuel`. -/
def stepB (expand : List Val → HV → HV) (fuel : Nat) (w : World) : BOp → Option World
  | .dict d => some { w with heap := (w.heap.alloc d).1 }
  | .builder => some { w with heap := (newFactory w.heap).1, factories := w.factories ++ [(newFactory w.heap).2] }
  | .defaults f slot kw =>
    match w.factories[f]? with
    | none => none
    | some fac =>
      let (h, a) := w.heap.alloc kw
      (setDefaultsH fuel a (fac.slot slot) true h).map (fun h => { w with heap := h })
  | .build f slot key args kw =>
    match w.factories[f]? with
    | none => none
    | some fac =>
      match applyKey key kw w.heap with
      | .error _ => none
      | .ok (kw, h) =>
        (buildPattern expand fuel fac slot args kw h).map
          (fun r => { w with heap := r.1, patterns := w.patterns ++ [r.2] })
  | .chain f kw =>
    match w.factories[f]? with
    | none => none
    | some fac =>
      match buildPattern expand fuel fac .chain [] kw w.heap with
      | none => none
      | some (h, p) =>
        (inheritDefaults fuel fac h).map
          (fun r => { heap := r.1, factories := w.factories ++ [r.2], patterns := w.patterns ++ [p] })
  | .declareKeys f ks =>
    match w.factories[f]? with
    | none => none
    | some fac =>
      let fac : Factory := { fac with keys := ks.foldl (fun d k => Dict.set d k.name k.converter) fac.keys }
      some { w with factories := w.factories.set f fac }
  | .reset f =>
    match w.factories[f]? with
    | none => none
    | some _ =>
      some { w with heap := (newFactory w.heap).1, factories := w.factories.set f (newFactory w.heap).2 }

/-- A sequence of operations. -/
def runB (expand : List Val → HV → HV) (fuel : Nat) : World → List BOp → Option World
  | w, [] => some w
  | w, op :: ops =>
    match stepB expand fuel w op with
    | none => none
    | some w => runB expand fuel w ops

/-- Before any operation. -/
def World.init : World := ⟨[], [], []⟩

end Rebulk
