import Verif.Java
/-!
A collection and, beside it, the state of the consumer a walk (`forEach`, `forEachEntry`, `forEachValue`) is given:
the captured variables of a Java lambda.  The walks themselves are generated from the Java text
(Gen/*Walk.lean: KeyDeque.ftl:36-42, KeyVector.ftl:53-57, BaseHeap.java:42-48, BaseHash.java:95-109,
BaseKeyIndex.ftl:44-58, KeyValueIndexedMap.ftl:109-123).
-/
namespace Verif

/-- An object, and the state of the consumer. -/
structure Beside (σ O : Type) where
  obj : O
  ext : σ

namespace Walk
variable {σ O α : Type}

/-- What the object does by itself. -/
def lift (m : JM O α) : JM (Beside σ O) α := ⟨fun t =>
  match m t.obj with
  | .ok a o => .ok a { t with obj := o }
  | .err e o => .err e { t with obj := o }⟩

/-- What a consumer does that does not touch the object: it changes its own state, and returns or throws. -/
def aside (m : JM σ α) : JM (Beside σ O) α := ⟨fun t =>
  match m t.ext with
  | .ok a u => .ok a { t with ext := u }
  | .err e u => .err e { t with ext := u }⟩

end Walk
end Verif
