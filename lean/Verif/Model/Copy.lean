import Verif.Model.BufferStd
/-
Copying from a `BufReader` to a `BufWriter` with the standard library (environment: not code of
/repo).  Every step of the loop is a method of src/io/buffer.rs.
-/
namespace Vmap
variable {σ τ : Type}

/-- `std::io::copy(&mut reader, &mut writer)` for the types of src/io/buffer.rs, which override
nothing it uses (src/io/buffer.rs:137-151, 422-440): read into a buffer, try again on
`Interrupted`, stop at a read of 0 bytes, `write_all` what was read.  At most `steps` rounds;
`dst 0, dst 1, …` are the sizes and old contents of the buffer (8 KiB in the standard
library), `len` counts the bytes of earlier rounds, `fuel` and `rounds` bound the loops inside
`write_all`. -/
def ioCopy (R : Reader σ) (W : Writer τ) (t : Target) (fuel rounds : Nat) :
    Nat → (Nat → List Byte) → Kernel → BufReader σ → BufWriter τ → Nat →
    Exec (Kernel × BufReader σ × BufWriter τ × Out Nat)
  | 0, _, k, r, w, _ => return (k, r, w, .pending)
  | steps + 1, dst, k, r, w, len => do
    let (k, r, d, x) ← r.read R t k (dst 0)
    match x with
    | .ok 0 => return (k, r, w, .ok len)
    | .ok n =>
      if d.length < n then throw .panic
      else
        let (k, w, _, y) ← w.writeAll W t fuel rounds k (d.take n)
        match y with
        | .ok () => ioCopy R W t fuel rounds steps (fun i => dst (i + 1)) k r w (len + n)
        | .err e => return (k, r, w, .err e)
        | .unwound => return (k, r, w, .unwound)
        | .pending => return (k, r, w, .pending)
    | .err e =>
      if e.kind = .interrupted then
        ioCopy R W t fuel rounds steps (fun i => dst (i + 1)) k r w len
      else return (k, r, w, .err e)
    | .unwound => return (k, r, w, .unwound)
    | .pending => return (k, r, w, .pending)

end Vmap
