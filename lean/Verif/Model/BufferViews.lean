import Verif.Model.Buffer
/-
src/io/buffer.rs — the accessors of `BufReader` and `BufWriter`.  A reference to the inner object is
modelled by the inner object's state; a mutable reference by a function that is applied to it.
-/
namespace Vmap
variable {σ α : Type}

namespace BufReader

/-- `BufReader::lowat` — src/io/buffer.rs:52-54. -/
def getLowat (b : BufReader σ) : Nat := b.lowat
/-- `BufReader::get_ref` — src/io/buffer.rs:79-81. -/
def getRef (b : BufReader σ) : σ := b.inner
/-- `Deref::deref` — src/io/buffer.rs:105-107. -/
def deref (b : BufReader σ) : σ := b.getRef
/-- `AsRef::as_ref` — src/io/buffer.rs:122-124. -/
def asRef (b : BufReader σ) : σ := b.deref
/-- `f(BufReader::get_mut)` — src/io/buffer.rs:85-87. -/
def getMut (b : BufReader σ) (f : σ → σ × α) : BufReader σ × α :=
  ({ b with inner := (f b.inner).1 }, (f b.inner).2)
/-- `f(DerefMut::deref_mut)` — src/io/buffer.rs:112-114. -/
def derefMut (b : BufReader σ) (f : σ → σ × α) : BufReader σ × α := b.getMut f
/-- `f(AsMut::as_mut)` — src/io/buffer.rs:132-134. -/
def asMut (b : BufReader σ) (f : σ → σ × α) : BufReader σ × α := b.derefMut f

end BufReader

namespace BufWriter

/-- `BufWriter::get_ref` — src/io/buffer.rs:248-250. -/
def getRef (b : BufWriter σ) : σ := b.inner
/-- `Deref::deref` — src/io/buffer.rs:382-384. -/
def deref (b : BufWriter σ) : σ := b.getRef
/-- `AsRef::as_ref` — src/io/buffer.rs:399-401. -/
def asRef (b : BufWriter σ) : σ := b.deref
/-- `f(BufWriter::get_mut)` — src/io/buffer.rs:254-256. -/
def getMut (b : BufWriter σ) (f : σ → σ × α) : BufWriter σ × α :=
  ({ b with inner := (f b.inner).1 }, (f b.inner).2)
/-- `f(DerefMut::deref_mut)` — src/io/buffer.rs:389-391. -/
def derefMut (b : BufWriter σ) (f : σ → σ × α) : BufWriter σ × α := b.getMut f
/-- `f(AsMut::as_mut)` — src/io/buffer.rs:409-411. -/
def asMut (b : BufWriter σ) (f : σ → σ × α) : BufWriter σ × α := b.derefMut f

end BufWriter

end Vmap
