import Verif.Proofs.BufChain
import Verif.Proofs.RingAdapt
import Verif.Props.BufCopy
/-
Property theorems C178: two buffered readers through `Read::chain`, and the vectored calls of buffered readers and writers.
-/
namespace Vmap
open Kernel Spec
variable {σ σ' τ : Type}

/-- C178: in a program in any reachable state, two `BufReader`s (handles `i` and `j`, with `qa` and `qb` buffered) over
any honest readers are chained and read to the end, with destinations of any size.  What is got is first the stream of
the first, then that of the second; nothing is lost, what was handed over and not got is still in its buffer.  The
second is not called before the first is at its end and its buffer empty.  Success means that both are at their end.
An error or panic is that of the reader whose turn it is.  Nothing is done but to call functions of the two rings. -/
theorem C178_chain {tab : SysTable} {t : Target} {k0 : Kernel} (wf : Wf t k0) {w : World}
    (h : Reach tab t k0 w) (R : Reader σ) (hR : R.Honest) (R' : Reader σ') (hR' : R'.Honest) {i j n m : Nat}
    (hij : i ≠ j) {a : BufReader (σ × List ReadEvent)} {b : BufReader (σ' × List ReadEvent)}
    (hi : w.held i = some (.ring a.buf n)) (hj : w.held j = some (.ring b.buf m)) {qa qb : List Byte}
    (hqa : a.buffer t w.k = .ok qa) (hqb : b.buffer t w.k = .ok qb) (steps : Nat) (dst : Nat → List Byte)
    (hd : ∀ i, dst i ≠ [])
    (belowa : n + steps * SeqWrite.writeCapacity a.buf < posBound t (SeqWrite.writeCapacity a.buf))
    (belowb : m + steps * SeqWrite.writeCapacity b.buf < posBound t (SeqWrite.writeCapacity b.buf)) :
    ∃ a' b' done x qa' qb' ea eb ga gb w',
      BufReader.chainToEnd R.spy R'.spy t steps dst w.k a b false [] = .ok (w'.k, a', b', done, ga ++ gb, x) ∧
      OnlyCalls tab t (fun l => l = i ∨ l = j) w w' ∧
      a'.buffer t w'.k = .ok qa' ∧ b'.buffer t w'.k = .ok qb' ∧
      a'.inner.2 = a.inner.2 ++ ea ∧ b'.inner.2 = b.inner.2 ++ eb ∧
      qa ++ taken ea = ga ++ qa' ∧ qb ++ taken eb = gb ++ qb' ∧
      (done = true → qa' = [] ∧ SaidEof ea) ∧ (done = false → gb = [] ∧ eb = []) ∧
      match x with
      | .ok () => done = true ∧ qb' = [] ∧ SaidEof eb
      | .err e => if done then SaidErr eb e else SaidErr ea e
      | .unwound => if done then SaidPanic eb else SaidPanic ea
      | .pending => steps ≤ ga.length + gb.length + interrupts ea + interrupts eb := by
  obtain ⟨a', b', done, x, qa', qb', ea, eb, ga, gb, w', e, c, h1, h2, h3, h4, h5, h6, h7, h8, res⟩ :=
    chain_to_end wf R hR R' hR' hij steps dst hd h hi hj hqa hqb belowa belowb []
  exact ⟨a', b', done, x, qa', qb', ea, eb, ga, gb, w', e, c, h1, h2, h3, h4, h5, h6, h7, h8, res⟩

/-- C178: so a chain that was read to the end with success gave the two streams, whole and in order. -/
theorem C178_chain_all {tab : SysTable} {t : Target} {k0 : Kernel} (wf : Wf t k0) {w : World}
    (h : Reach tab t k0 w) (R : Reader σ) (hR : R.Honest) (R' : Reader σ') (hR' : R'.Honest) {i j n m : Nat}
    (hij : i ≠ j) {a a' : BufReader (σ × List ReadEvent)} {b b' : BufReader (σ' × List ReadEvent)}
    (hi : w.held i = some (.ring a.buf n)) (hj : w.held j = some (.ring b.buf m)) {qa qb : List Byte}
    (hqa : a.buffer t w.k = .ok qa) (hqb : b.buffer t w.k = .ok qb) (steps : Nat) (dst : Nat → List Byte)
    (hd : ∀ i, dst i ≠ [])
    (belowa : n + steps * SeqWrite.writeCapacity a.buf < posBound t (SeqWrite.writeCapacity a.buf))
    (belowb : m + steps * SeqWrite.writeCapacity b.buf < posBound t (SeqWrite.writeCapacity b.buf))
    {k' : Kernel} {done : Bool} {got : List Byte}
    (read : BufReader.chainToEnd R.spy R'.spy t steps dst w.k a b false [] = .ok (k', a', b', done, got, .ok ())) :
    ∃ ea eb, a'.inner.2 = a.inner.2 ++ ea ∧ b'.inner.2 = b.inner.2 ++ eb ∧ SaidEof ea ∧ SaidEof eb ∧
      got = qa ++ taken ea ++ (qb ++ taken eb) := by
  obtain ⟨a1, b1, done1, x, qa1, qb1, ea, eb, ga, gb, w1, e, -, -, -, h1, h2, h3, h4, h5, -, res⟩ :=
    C178_chain wf h R hR R' hR' hij hi hj hqa hqb steps dst hd belowa belowb
  rw [read] at e
  simp only [Except.ok.injEq, Prod.mk.injEq] at e
  obtain ⟨-, f2, f3, f4, f5, f6⟩ := e
  subst f2 f3 f4 f5 f6
  obtain ⟨r1, r2, r3⟩ := res
  obtain ⟨s1, s2⟩ := h5 r1
  exact ⟨ea, eb, h1, h2, s2, r3, by rw [h3, h4, s1, r2, List.append_nil, List.append_nil]⟩

theorem readVectored_first {R : Reader σ} {t : Target} {k : Kernel} {b : BufReader σ} {s : List Byte} (hs : s ≠ [])
    {post : List (List Byte)} : ∀ {pre : List (List Byte)} (_ : ∀ p ∈ pre, p = []),
    b.readVectored R t k (pre ++ s :: post) =
      (b.read R t k s).map (fun (k, b, d, x) => (k, b, pre ++ d :: post, x))
  | [], _ => by
    rw [List.nil_append, BufReader.readVectored,
      if_neg (fun hc => hs (List.eq_nil_of_length_eq_zero hc))]
    cases b.read R t k s <;> rfl
  | p :: pre, hp => by
    rw [List.cons_append, BufReader.readVectored, if_pos (by rw [hp p (by simp)]; rfl),
      readVectored_first hs (fun p h => hp p (by simp [h]))]
    cases b.read R t k s <;> rfl

/-- C178: `read_vectored` on a `BufReader` in a program in any reachable state: only the first slice that is not empty
(`s`) is stored to, with the next bytes of the stream; the other slices are as before.  An error or panic is the inner
reader's only call, and takes nothing from the buffer. -/
theorem C178_read_vectored {tab : SysTable} {t : Target} {k0 : Kernel} (wf : Wf t k0) {w : World}
    (h : Reach tab t k0 w) (R : Reader σ) (hR : R.Honest) {i n : Nat} {r : BufReader (σ × List ReadEvent)}
    (hi : w.held i = some (.ring r.buf n)) {q : List Byte} (hq : r.buffer t w.k = .ok q)
    (below : n + SeqWrite.writeCapacity r.buf < posBound t (SeqWrite.writeCapacity r.buf))
    {pre post : List (List Byte)} {s : List Byte} (hpre : ∀ p ∈ pre, p = []) (hs : s ≠ []) :
    ∃ r' d x q' er w', r.readVectored R.spy t w.k (pre ++ s :: post) = .ok (w'.k, r', pre ++ d :: post, x) ∧
      OnlyCalls tab t (· = i) w w' ∧ r'.buffer t w'.k = .ok q' ∧ r'.inner.2 = r.inner.2 ++ er ∧
      match x with
      | .ok m => m ≤ s.length ∧ d.length = s.length ∧ d.take m ++ q' = q ++ taken er ∧
          (m = 0 → q = [] ∧ q' = [] ∧ SaidEof er)
      | .err e => q' = q ∧ ∃ ev stored, er = [ev] ∧ ev.resp = .err e stored
      | .unwound => q' = q ∧ ∃ ev stored, er = [ev] ∧ ev.resp = .panic stored
      | .pending => False := by
  obtain ⟨r', d, x, n', q', er, w', e, c, -, -, -, h1, h2, st⟩ := read_calls wf h R hR hi hq below s
  refine ⟨r', d, x, q', er, w', by rw [readVectored_first hs hpre, e]; rfl, c, h1, h2, ?_⟩
  cases st with
  | got m le len cons eof intr => exact ⟨le, len, cons, fun hm => eof hm hs⟩
  | failed e stored len resp => exact ⟨rfl, _, stored, rfl, resp⟩
  | unwound stored resp => exact ⟨rfl, _, stored, rfl, resp⟩

theorem writeVectored_first {W : Writer τ} {t : Target} {fuel : Nat} {k : Kernel} {b : BufWriter τ}
    {bufs : List (List Byte)} {p : List Byte} (first : FirstFull bufs p) :
    b.writeVectored W t fuel k bufs = b.write W t fuel k p := by
  induction first with
  | none => rfl
  | here full =>
    rw [BufWriter.writeVectored, if_neg (fun hc => full (List.eq_nil_of_length_eq_zero hc))]
  | later before ih => rw [BufWriter.writeVectored, if_pos List.length_nil, ih]

theorem FirstFull.front {bufs : List (List Byte)} {p : List Byte} (first : FirstFull bufs p) :
    ∃ rest, bufs.flatten = p ++ rest := by
  induction first with
  | none => exact ⟨[], rfl⟩
  | here full => exact ⟨_, List.flatten_cons⟩
  | later before ih => simpa using ih

/-- C178: `write_vectored` on a `BufWriter` in a program in any reachable state.  `Ok(m)`: exactly the first `m` bytes
of the slices, put one after the other, were accepted, at most as many as are in the first slice `p` that is not empty.
An error or a panic: none, and the order is as it was.  If `p` is shorter than the free space it is only buffered. -/
theorem C178_write_vectored {tab : SysTable} {t : Target} {k0 : Kernel} (wf : Wf t k0) {w : World}
    (h : Reach tab t k0 w) (W : Writer τ) (hW : W.Honest) (fuel : Nat) {j n : Nat}
    {b : BufWriter (τ × List WriteEvent)} (hj : w.held j = some (.ring b.buf n)) {q : List Byte}
    (hq : b.buffered t w.k = .ok q)
    (below : n + SeqWrite.writeCapacity b.buf < posBound t (SeqWrite.writeCapacity b.buf))
    {bufs : List (List Byte)} {p : List Byte} (first : FirstFull bufs p) :
    ∃ b' x q' w', b.writeVectored W.spy t fuel w.k bufs = .ok (w'.k, b', x) ∧ OnlyCalls tab t (· = j) w w' ∧
      b'.buffered t w'.k = .ok q' ∧
      (match x with
       | .ok m => m ≤ p.length ∧
           (received b'.inner.2 ++ q').Perm (received b.inner.2 ++ q ++ bufs.flatten.take m)
       | _ => received b'.inner.2 ++ q' = received b.inner.2 ++ q) ∧
      (q.length + p.length < SeqWrite.writeCapacity b.buf →
        b'.inner = b.inner ∧ x = .ok p.length ∧ q' = q ++ p) := by
  have at_ := ((h.inv wf).live j _ hj).1
  obtain ⟨k', b', x, n', q', e, -, -, h1, h2, h3, -⟩ := C66_write W t fuel w.k b n at_ q hq below p
  obtain ⟨q0, sp, v⟩ := RingAt.view at_
  obtain ⟨n2, c, -, -⟩ := (wr_write_uses e).calls wf h hj (by simp only [SeqWrite.writeCapacity] at below; omega)
  refine ⟨b', x, q', _, by rw [writeVectored_first first]; exact e, c, h1, ?_, h3⟩
  cases x with
  | ok m =>
    have hm := honest_direct W hW v below e
    obtain ⟨rest, hf⟩ := FirstFull.front first
    refine ⟨hm, ?_⟩
    rw [hf, List.take_append_of_le_length hm]
    exact h2.1
  | err e => exact h2
  | unwound => exact h2
  | pending => exact h2

/-! ### Examples -/

theorem pieces_honest : pieces.Honest := by
  intro s off
  cases s with
  | nil => simp [pieces]
  | cons c cs => by_cases h : c.length ≤ off.length <;> simp [pieces, h]

-- two readers that hand out pieces, with rings of 16384 and 8192 bytes; the same rings for the vectored calls
example (tab : SysTable) : Wf ⟨.w64, true⟩ (demo 0) ∧ pieces.Honest ∧ twoWriter.Honest ∧
    ∃ (w : World) (a b : BufReader (List (List Byte) × List ReadEvent)) (c : BufWriter (List Byte × List WriteEvent)),
    Reach tab ⟨.w64, true⟩ (demo 0) w ∧ w.held 0 = some (.ring a.buf 0) ∧
    w.held 2 = some (.ring b.buf 0) ∧ w.held 2 = some (.ring c.buf 0) ∧ (0 : Nat) ≠ 2 ∧
    a.buffer ⟨.w64, true⟩ w.k = .ok [] ∧ b.buffer ⟨.w64, true⟩ w.k = .ok [] ∧ c.buffered ⟨.w64, true⟩ w.k = .ok [] ∧
    0 + 20000 * SeqWrite.writeCapacity a.buf < posBound ⟨.w64, true⟩ (SeqWrite.writeCapacity a.buf) ∧
    0 + 20000 * SeqWrite.writeCapacity b.buf < posBound ⟨.w64, true⟩ (SeqWrite.writeCapacity b.buf) ∧
    0 + SeqWrite.writeCapacity c.buf < posBound ⟨.w64, true⟩ (SeqWrite.writeCapacity c.buf) ∧
    FirstFull [[], [1, 2], [3]] [1, 2] := by
  refine ⟨demo_wf 0, pieces_honest, ?_, ?_⟩
  · intro s data; simp only [twoWriter]; omega
  obtain ⟨w, a, b, c, d, h, h0, h1, h2, h3, la, lc, lb, ld⟩ := demo_rings tab
  have v := h.inv (demo_wf 0)
  refine ⟨w, ⟨a, ([[1], [2, 3]], []), 0⟩, ⟨b, ([[4]], []), 0⟩, ⟨b, ([], []), false⟩, h, h0, h2, h2, by decide,
    new_empty (v.live 0 _ h0).1, new_empty (v.live 2 _ h2).1, new_empty (v.live 2 _ h2).1, ?_, ?_, ?_,
    .later (.here (by simp))⟩
  · simp only [SeqWrite.writeCapacity, la]; simp [posBound, Target.lim, Width.bits, lim64]
  · simp only [SeqWrite.writeCapacity, lb]; simp [posBound, Target.lim, Width.bits, lim64]
  · simp only [SeqWrite.writeCapacity, lb]; simp [posBound, Target.lim, Width.bits, lim64]

end Vmap
