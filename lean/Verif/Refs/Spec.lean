import Verif.Refs.Model
import Verif.Docs.Spec

/-!
# What references into `data` mean: a specification
-/

namespace Verif.Refs

open Docs

/-- The names lead from one value to another, one lookup after the other. -/
inductive Steps (L : Lib) : Val → List Str → Val → Prop where
  | nil (v : Val) : Steps L v [] v
  | cons {v x w : Val} {k : Str} {ks : List Str} (dot : Copy.dot L (some v) (some (.leaf (.str k))) = some x)
      (rest : Steps L x ks w) : Steps L v (k :: ks) w

/-- The outcome is the value the names lead to, and undefined if they lead nowhere. -/
def Follows (L : Lib) (v : Val) (ks : List Str) (out : Option Val) : Prop := ∀ w, out = some w ↔ Steps L v ks w

/-- The names lead to something in the base document that was there when the query was compiled. -/
inductive Base.Holds : Base → List Str → Base → Prop where
  | here (b : Base) : Holds b [] b
  | next {items : List (Str × Base)} {k : Str} {b c : Base} {ks : List Str} (mem : (k, b) ∈ items) (rest : Holds b ks c) :
      Holds (.obj items) (k :: ks) c

/-- While compiling, the base document has nothing but objects where there are packages. -/
def Clear (root : Doc) (base : Base) : Prop :=
  ∀ ps d b, root.Has ps d → base.Holds ps b → ∃ items, b = .obj items

/-- The value is an object with names as keys, each of them once, without quotes. -/
def PlainObject (v : Val) : Prop :=
  ∃ kvs : List (Val × Val), v = .obj kvs ∧ (kvs.map (·.1)).Nodup ∧ ∀ p ∈ kvs, ∃ n, p.1 = .leaf (.str n) ∧ '"' ∉ n

end Verif.Refs
