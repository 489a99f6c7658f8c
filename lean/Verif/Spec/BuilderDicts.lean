import Verif.Spec.BuilderOptions
/-!
# Specification of dict-valued options meeting dict-valued defaults
-/
namespace Rebulk.Spec

/-- An entry of a dict-valued option. -/
def entry (h : DHeap) : Option HV → String → Option HV
  | some (.ref a), n => (h.at_ a).get? n
  | _, _ => none

/-- A dict without repeated keys, without the key `clear`, and without dicts in it. -/
def FlatDict (d : HDict) : Prop := d.keys.Nodup ∧ "clear" ∉ d.keys ∧ ∀ n x, d.get? n ≠ some (.ref x)

/-- The dict objects among the options. -/
def dictsIn (d : HDict) : List Nat := d.filterMap (fun kv => match kv.2 with | .ref a => some a | _ => none)

/-- The dict objects among the options of a call, the defaults of its kind and the general defaults are all different, they exist, none of them is a dict of
defaults of the builder, and none contains dicts. -/
structure SeparateDicts (h : DHeap) (given : HDict) (f : Factory) (slot : Slot) : Prop where
  different : (dictsIn given ++ (dictsIn (h.at_ (f.slot slot)) ++ dictsIn (h.at_ f.base))).Nodup
  plain : ∀ a ∈ dictsIn given ++ (dictsIn (h.at_ (f.slot slot)) ++ dictsIn (h.at_ f.base)),
    a < h.length ∧ a ≠ f.slot slot ∧ a ≠ f.base ∧ FlatDict (h.at_ a)

/-- The dicts given as regular expressions exist and are not used as options. -/
def SeparateArgs (h : DHeap) (given : HDict) (f : Factory) (slot : Slot) (args : List HV) : Prop :=
  ∀ a, HV.ref a ∈ args → a < h.length ∧ a ∉ dictsIn given ++ (dictsIn (h.at_ (f.slot slot)) ++ dictsIn (h.at_ f.base))

/-- The dict options of the result have the entries of the given dict combined with those of the default dict of the kind, then with those of the general
one. -/
def MergedDicts (h h' : DHeap) (given : String → Option HV) (kind general result : HDict) : Prop :=
  ∀ name a, result.get? name = some (.ref a) → ∀ n, (h'.at_ a).get? n =
    combine (entry h (general.get? name) n) (combine (entry h (kind.get? name) n) (entry h (if name = "overrides" then none else given name) n))

/-- The converter of the first key of that name. -/
def converterOf (ks : List BKey) (n : String) : Option HV := (ks.find? (fun k => k.name == n)).map (fun k => .atom (.obj k.converter))

/-- Every reference in the dict is to one of the first `n` dict objects. -/
def ClosedDict (n : Nat) (d : HDict) : Prop := ∀ (name : String) (b : Nat), (name, HV.ref b) ∈ d → b < n

/-- The operation mentions existing dict objects only (a program has no others). -/
def BOp.Known (w : World) : BOp → Prop
  | .dict d => ClosedDict w.heap.length d
  | .defaults _ _ kw => ClosedDict w.heap.length kw
  | .build _ _ _ args kw => ClosedDict w.heap.length kw ∧ ∀ a, HV.ref a ∈ args → a < w.heap.length
  | .chain _ kw => ClosedDict w.heap.length kw
  | _ => True

/-- The worlds a program reaches with operations on existing dict objects. -/
inductive ReachableK (expand : List Val → HV → HV) : World → Prop where
  | init : ReachableK expand World.init
  | step {w w' op fuel} : ReachableK expand w → BOp.Valid op → BOp.Known w op → stepB expand fuel w op = some w' → ReachableK expand w'

end Rebulk.Spec
