import Verif.Model.DocMap
import Verif.Spec.DocMap
import Verif.Props.MapUse
import Verif.Props.MapRange
import Verif.Props.Exact
import Verif.Props.Works
import Verif.Props.Open
/- Helper lemmas for C157: files with a known text, and maps that show them. -/
namespace Vmap
open Kernel Spec

variable {t : Target}

/-- `m` shows object `x` from byte `off` on, and the two agree from now on; `w`: it can be written. -/
structure Sees (t : Target) (k : Kernel) (m : MapMut) (x : Obj) (off : Nat) (w : Bool) : Prop where
  live : ∃ p n, Live t k m p n
  maps : ∃ mw prot, k.MapsAll m.ptr m.len x off true mw prot ∧ prot.r = true ∧ (w = true → prot.w = true)

theorem Spec.Fine.ok (k : Kernel) : Fine (pure (k, .ok ())) := ⟨k, .ok (), rfl, fun _ h => by cases h⟩

theorem Spec.Fine.ask {α : Type} {x : Exec (Kernel × Result α)} {k : Kernel} {r : Result α}
    {f : Kernel → α → Exec (Kernel × Result Unit)} (h : x = .ok (k, r))
    (he : ∀ e, r = .error e → ∃ n, e.rawOsError = some n) (hf : ∀ a, r = .ok a → Fine (f k a)) :
    Fine (DocMap.ask x f) := by
  subst h
  cases r with
  | error e => exact ⟨k, .error e, rfl, fun e' h => by injection h with h; subst h; exact he _ rfl⟩
  | ok a => exact hf a rfl

theorem Spec.Fine.askConv {α β : Type} {x : Exec (Kernel × ConvertResult α β)} {k : Kernel}
    {r : ConvertResult α β} {f : Kernel → α → Exec (Kernel × Result Unit)} (h : x = .ok (k, r))
    (he : ∀ e b, r = .error (e, b) → ∃ n, e.rawOsError = some n)
    (hf : ∀ a, r = .ok a → Fine (f k a)) : Fine (DocMap.askConv x f) := by
  subst h
  cases r with
  | error e =>
    obtain ⟨e, b⟩ := e
    exact ⟨k, .error e, rfl, fun e' h => by injection h with h; subst h; exact he _ _ rfl⟩
  | ok a => exact hf a rfl

/-- A text through a map. -/
theorem Sees.loadN {k : Kernel} (wf : Wf t k) {m : MapMut} {x off w} (s : Sees t k m x off w)
    {text : List Byte} (tx : Text k x text) (hl : off + m.len ≤ text.length) {a b : Nat} (hab : a ≤ b)
    (hb : b ≤ m.len) :
    k.loadN (m.ptr + a) (b - a) = .ok ((text.drop (off + a)).take (b - a)) := by
  obtain ⟨mw, prot, h, hr, -⟩ := s.maps
  have hlen : ((text.drop (off + a)).take (b - a)).length = b - a := by
    rw [List.length_take, List.length_drop]; omega
  have := loadN_eq (k := k) ((text.drop (off + a)).take (b - a)) (m.ptr + a) (fun i hi => by
    rw [hlen] at hi
    have := C33_stays wf h hr (i := a + i) (by omega)
    rw [MapMut.get, if_pos (by omega), ← Nat.add_assoc] at this
    rw [this, tx.data _ (by omega)]
    congr 1
    simp only [List.getD_eq_getElem?_getD, List.getElem?_take, List.getElem?_drop]
    rw [if_pos hi, Nat.add_assoc])
  rwa [hlen] at this

theorem Sees.shows {k : Kernel} (wf : Wf t k) {m : MapMut} {x off w} (s : Sees t k m x off w)
    {text : List Byte} (tx : Text k x text) (hl : off + m.len ≤ text.length) {a b : Nat} (hab : a ≤ b)
    (hb : b ≤ m.len) {want : List Byte} (hw : (text.drop (off + a)).take (b - a) = want) :
    DocMap.shows k m a b want = .ok () := by
  rw [DocMap.shows, if_pos ⟨hab, hb⟩, s.loadN wf tx hl hab hb, hw]
  simp only [bind, Except.bind, Doc.assert, decide_true, if_true]

/-- Writing a text through a map. -/
theorem Sees.put {k : Kernel} (wf : Wf t k) {m : MapMut} {x off} (s : Sees t k m x off true)
    {text : List Byte} (tx : Text k x text) (hl : off + m.len ≤ text.length) {new : List Byte}
    (hn : new.length ≤ m.len) :
    ∃ k', DocMap.put k m new = .ok k' ∧ Wf t k' ∧ k'.names = k.names ∧ k'.fds = k.fds ∧
      k'.page = k.page ∧ k'.pt = k.pt ∧ k'.oracle = k.oracle ∧
      Text k' x (text.take off ++ new ++ text.drop (off + new.length)) ∧ Sees t k' m x off true := by
  obtain ⟨mw, prot, h, hr, hw⟩ := s.maps
  obtain ⟨k', e, st⟩ := storeN_maps new k 0 wf h hr (hw rfl) (by omega)
  obtain ⟨s1, s2, s3, s4⟩ := st.shared rfl
  have hlen : (text.take off ++ new ++ text.drop (off + new.length)).length = text.length := by
    simp only [List.length_append, List.length_take, List.length_drop]; omega
  refine ⟨k', by rw [DocMap.put, if_pos hn]; exact e, st.wf, st.fx.names, st.fx.fds, st.fx.page, s1,
    st.fx.oracle, ⟨?_, ?_⟩, ?_, mw, prot, st.maps, hr, hw⟩
  · rw [st.fx.size, tx.size, hlen]
  · intro i hi
    rw [hlen] at hi
    rw [s4 i, Nat.add_zero]
    simp only [List.getD_eq_getElem?_getD]
    by_cases h1 : i < off
    · rw [if_neg (by omega), tx.data i hi, List.append_assoc,
        List.getElem?_append_left (by rw [List.length_take]; omega), List.getElem?_take, if_pos h1]
      rw [List.getD_eq_getElem?_getD]
    · by_cases h2 : i < off + new.length
      · rw [if_pos (by omega), List.append_assoc,
          List.getElem?_append_right (by rw [List.length_take]; omega), List.length_take,
          Nat.min_eq_left (by omega), List.getElem?_append_left (by omega)]
      · rw [if_neg (by omega), tx.data i hi, List.getElem?_append_right (by
          simp only [List.length_append, List.length_take]; omega)]
        simp only [List.length_append, List.length_take, List.getElem?_drop, List.getD_eq_getElem?_getD]
        congr 2
        omega
  · obtain ⟨p, n, g⟩ := s.live
    exact ⟨p, n, by rw [st.fx.page]; exact g.pages, by rw [s1]; exact g.mapped⟩

/-- A text cut or extended. -/
def fitted (trunc : Bool) (resize : Extent) (text : List Byte) : List Byte :=
  (if trunc then [] else text).take (newLen trunc resize text.length) ++
    List.replicate (newLen trunc resize text.length - (if trunc then 0 else text.length)) 0

theorem fitted_length (trunc resize text) :
    (fitted trunc resize text).length = newLen trunc resize text.length := by
  cases trunc <;> simp [fitted] <;> omega

theorem fitted_same (text : List Byte) : fitted false .endOf text = text := by
  simp [fitted, newLen]

/-- `map_if` on a file with a known text. -/
theorem mapped (tab : SysTable) {k : Kernel} (wf : Wf t k) {o : Options} (fits : Fits t o) {fd : Nat}
    {f : Fd} (file : k.fds fd = some f) {text : List Byte} (tx : Text k f.obj text)
    (small : text.length < t.lim) (sh : sharedOf o.protect = true) (len : named o.resize < 2 ^ 63) :
    ∃ k' r, o.mapIf tab t k fd = .ok (k', r) ∧ Wf t k' ∧ k'.names = k.names ∧ k'.fds = k.fds ∧
      k'.page = k.page ∧ k'.oracle = k.oracle ∧
      (∀ e, r = .error e → ∃ n, e.rawOsError = some n) ∧
      (r = .ok none → ¬ InRange (newLen o.truncate o.resize text.length) o.offset o.len) ∧
      (∀ m, r = .ok (some m) → InRange (newLen o.truncate o.resize text.length) o.offset o.len ∧
        m.len = wanted (newLen o.truncate o.resize text.length) o.offset o.len ∧
        Text k' f.obj (fitted o.truncate o.resize text) ∧
        o.offset + m.len ≤ (fitted o.truncate o.resize text).length ∧
        Sees t k' m f.obj o.offset (decide (o.protect = .readWrite)) ∧
        k'.MapsAll m.ptr m.len f.obj o.offset true f.canWrite (protOf o.protect)) := by
  have hmod : k.size f.obj % t.lim = text.length := by rw [tx.size]; exact Nat.mod_eq_of_lt small
  obtain ⟨k', r, h1, g⟩ := mapIf_keeps tab wf fits (fd := fd)
  obtain ⟨k2, r2, l, h2, hlog, hno, hyes⟩ := C32_exact tab t k wf o fits fd f file text.length hmod.symm
  rw [h1] at h2
  obtain ⟨rfl, rfl⟩ := ok_pair h2
  obtain ⟨k3, r3, l3, h3, hlog3, hres⟩ := C35_exact tab t k wf o fits fd f file text.length hmod.symm
  rw [h1] at h3
  obtain ⟨rfl, rfl⟩ := ok_pair h3
  have raw : ∀ l e, LengthError tab l o.resize e → ∃ n, e.rawOsError = some n := by
    rintro l e (⟨c, errno, rest, -, rfl⟩ | ⟨n, msg, hn, hbig, -⟩)
    · exact ⟨errno, rfl⟩
    · exfalso
      have : named o.resize = n := by rcases hn with h | h | h <;> rw [h] <;> rfl
      omega
  have horacle : k'.oracle = k.oracle := by
    rcases prep_all tab fits file with ⟨k1, e, l, a1, a2, -⟩ | ⟨k1, l, a1, a2, -, a4, -⟩
    · rw [h1] at a1; obtain ⟨rfl, -⟩ := ok_pair a1; exact a2.oracle
    · rw [h1] at a1
      rcases mapStep_cases (a2.wf wf) (fd := fd) fits a4 with ⟨-, b⟩ | ⟨-, e, b⟩ | ⟨-, p, f', -, -, -, -, -, -, -, b⟩
      · rw [b] at a1; obtain ⟨rfl, -⟩ := ok_pair a1; exact a2.oracle
      · rw [b] at a1; obtain ⟨rfl, -⟩ := ok_pair a1; exact a2.oracle
      · rw [b] at a1; obtain ⟨rfl, -⟩ := ok_pair a1; exact a2.oracle
  refine ⟨k', r, h1, g.wf, g.names, g.fds, g.page, horacle, ?_, ?_, ?_⟩
  · intro e he
    by_cases hr : InRange (newLen o.truncate o.resize text.length) o.offset o.len
    · rcases hyes hr with ⟨m, h, -⟩ | ⟨e', h, h'⟩ | ⟨c, errno, rest, h, -⟩
      · rw [he] at h; cases h
      · rw [he] at h; injection h with h; subst h; exact raw _ _ h'
      · rw [he] at h; injection h with h; subst h; exact ⟨errno, rfl⟩
    · rcases hno hr with h | ⟨e', h, h'⟩
      · rw [he] at h; cases h
      · rw [he] at h; injection h with h; subst h; exact raw _ _ h'
  · intro he hr
    rcases hyes hr with ⟨m, h, -⟩ | ⟨e', h, h'⟩ | ⟨c, errno, rest, h, -⟩ <;> rw [he] at h <;> cases h
  · intro m hm
    subst hm
    have hr : InRange (newLen o.truncate o.resize text.length) o.offset o.len := by
      apply Classical.byContradiction
      intro hr
      rcases hno hr with h | ⟨e', h, h'⟩ <;> cases h
    have hlen : m.len = wanted (newLen o.truncate o.resize text.length) o.offset o.len := by
      rcases hyes hr with ⟨m, h, h'⟩ | ⟨e', h, h'⟩ | ⟨c, errno, rest, h, -⟩
      · injection h with h; injection h with h; subst h; exact h'
      · cases h
      · cases h
    have hrs : Resized k k' f.obj (cutLen o.truncate (k.size f.obj) text.length)
        (leftLen o.truncate o.resize (k.size f.obj) text.length) := by
      rcases hres with ⟨e, h, -⟩ | h
      · cases h
      · exact h
    rw [tx.size, C35_left_small] at hrs
    have hcut : cutLen o.truncate text.length text.length = if o.truncate then 0 else text.length := by
      cases o.truncate <;> simp [cutLen]
    rw [hcut] at hrs
    obtain ⟨f', p, n, hf', -, -, hsz, c⟩ := g.made m rfl
    rw [file] at hf'
    injection hf' with hf'
    subst hf'
    refine ⟨hr, hlen, ⟨by rw [fitted_length]; exact hrs.size, ?_⟩, ?_, ?_⟩
    · intro i hi
      rw [fitted_length] at hi
      simp only [fitted, List.getD_eq_getElem?_getD]
      by_cases hk : i < if o.truncate then 0 else text.length
      · have ht : o.truncate = false := by
          cases h : o.truncate with
          | false => rfl
          | true => rw [h] at hk; simp at hk
        rw [hrs.kept i hi hk]
        rw [ht] at hk hi ⊢
        simp only [Bool.false_eq_true, if_false] at hk ⊢
        rw [tx.data i hk, List.getElem?_append_left (by rw [List.length_take]; omega), List.getElem?_take,
          if_pos hi, List.getD_eq_getElem?_getD]
      · rw [hrs.zero i hi (by omega)]
        have hl : ((if o.truncate then [] else text).take (newLen o.truncate o.resize text.length)).length ≤ i := by
          rw [List.length_take]
          cases h : o.truncate <;> rw [h] at hk <;> simp at hk ⊢ <;> omega
        rw [List.getElem?_append_right hl, List.getElem?_replicate]
        by_cases hq : i - ((if o.truncate then [] else text).take (newLen o.truncate o.resize text.length)).length <
            newLen o.truncate o.resize text.length - (if o.truncate then 0 else text.length)
        · rw [if_pos hq]; rfl
        · rw [if_neg hq]; rfl
    · rw [fitted_length, ← hrs.size]; exact hsz
    · have hm := c.maps
      rw [sh] at hm
      refine ⟨⟨⟨p, n, by rw [g.page]; exact c.pages, fun q a b => ?_⟩, ?_⟩, hm⟩
      · obtain ⟨e, he, -⟩ := c.mapped q a b; exact ⟨e, he⟩
      · refine ⟨_, _, hm, protOf_r _, ?_⟩
        intro h
        rw [decide_eq_true_eq] at h
        rw [h]; rfl

/-- The file before opening: it has a text, or it is not there. -/
def FileWas (k : Kernel) (path : String) (text : List Byte) : Prop :=
  FileHas k path text ∨ (k.names path = none ∧ text = [])

/-- Opening a file. -/
theorem opens (tab : SysTable) {k : Kernel} (wf : Wf t k) {o : Options} {path : String}
    {text : List Byte} (was : FileWas k path text) :
    ∃ k' r, o.openOptions.open tab k path = (k', r) ∧ Wf t k' ∧ k'.page = k.page ∧ k'.oracle = k.oracle ∧
      k'.pt = k.pt ∧ (∀ e, r = .error e → (∃ n, e.os = some n) ∧ k'.names = k.names ∧ k'.size = k.size ∧
        k'.data = k.data) ∧
      ∀ fd, r = .ok fd → ∃ x, k'.names path = some x ∧
        k'.fds fd = some ⟨x, true, o.openOptions.write⟩ ∧
        Text k' x (if o.openOptions.truncate then [] else text) := by
  have out := open_outcome tab k o.openOptions path
  obtain ⟨⟨k', r⟩, hx⟩ : ∃ x, x = o.openOptions.open tab k path := ⟨_, rfl⟩
  rw [← hx] at out ⊢
  have w1 := out.wf wf
  refine ⟨k', r, rfl, w1, ?_⟩
  cases out with
  | refused write asks =>
    exact ⟨rfl, rfl, rfl, fun e he => by injection he with he; subst he; exact ⟨⟨_, rfl⟩, rfl, rfl, rfl⟩,
      fun fd h => by cases h⟩
  | failed e writable =>
    exact ⟨rfl, rfl, rfl, fun e he => by injection he with he; subst he; exact ⟨⟨_, rfl⟩, rfl, rfl, rfl⟩,
      fun fd h => by cases h⟩
  | existing _ x name new writable state others keep trunc =>
    simp only at state keep trunc
    have s1 : k'.page = k.page := by rw [state]
    have s2 : k'.oracle = k.oracle := by rw [state]
    have s3 : k'.pt = k.pt := by rw [state]
    have s4 : k'.names = k.names := by rw [state]
    have s5 : k'.fds k.nextFd = some ⟨x, true, o.openOptions.write⟩ := by rw [state]; exact if_pos rfl
    refine ⟨s1, s2, s3, fun e he => (by cases he), ?_⟩
    intro fd hfd
    injection hfd with hfd
    subst hfd
    refine ⟨x, by rw [s4]; exact name, s5, ?_⟩
    rcases was with ⟨x', h1, h2⟩ | ⟨h, -⟩
    · rw [name] at h1
      injection h1 with h1
      subst h1
      cases ht : o.openOptions.truncate with
      | false =>
        obtain ⟨a, b⟩ := keep ht
        exact ⟨by rw [a]; exact h2.size, fun i hi => by rw [b]; exact h2.data i hi⟩
      | true => exact ⟨trunc ht, fun i hi => absurd hi (by simp)⟩
    · rw [name] at h; cases h
  | created name asks write =>
    refine ⟨rfl, rfl, rfl, fun e he => (by cases he), ?_⟩
    intro fd hfd
    injection hfd with hfd
    subst hfd
    refine ⟨k.fresh, if_pos rfl, if_pos rfl, ?_⟩
    rcases was with ⟨x', h1, h2⟩ | ⟨-, h⟩
    · rw [name] at h1; cases h1
    · subst h
      exact ⟨by simp, fun i hi => absurd hi (by split at hi <;> simp at hi)⟩

/-- `open_if` on a file with a known text. -/
theorem openedIf (tab : SysTable) {k : Kernel} (wf : Wf t k) {o : Options} (fits : Fits t o)
    {path : String} {text : List Byte} (was : FileWas k path text) (small : text.length < t.lim)
    (sh : sharedOf o.protect = true) (len : named o.resize < 2 ^ 63)
    (tr : o.openOptions.truncate = o.truncate) :
    ∃ k' r, o.openIf tab t k path = .ok (k', r) ∧ Wf t k' ∧ k'.page = k.page ∧ k'.oracle = k.oracle ∧
      (∀ e, r = .error e → ∃ n, e.rawOsError = some n) ∧
      (∀ fd, r = .ok (none, fd) → ¬ InRange (newLen o.truncate o.resize text.length) o.offset o.len) ∧
      (∀ m fd, r = .ok (some m, fd) →
        InRange (newLen o.truncate o.resize text.length) o.offset o.len ∧
        m.len = wanted (newLen o.truncate o.resize text.length) o.offset o.len ∧
        ∃ x, k'.names path = some x ∧ k'.fds fd = some ⟨x, true, o.openOptions.write⟩ ∧
          Text k' x (fitted o.truncate o.resize text) ∧
          o.offset + m.len ≤ (fitted o.truncate o.resize text).length ∧
          Sees t k' m x o.offset (decide (o.protect = .readWrite)) ∧
          k'.MapsAll m.ptr m.len x o.offset true o.openOptions.write (protOf o.protect)) := by
  obtain ⟨k1, r1, e1, w1, pg1, or1, -, er1, ok1⟩ := opens tab wf (o := o) was
  cases r1 with
  | error e =>
    refine ⟨k1, .error (Options.mapFileErr e), by simp only [Options.openIf, e1]; rfl, w1, pg1, or1, ?_,
      fun fd h => (by cases h), fun m fd h => by cases h⟩
    intro e' he'
    injection he' with he'
    subst he'
    exact (er1 e rfl).1
  | ok fd =>
    obtain ⟨x, n1, f1, t1⟩ := ok1 fd rfl
    have hnl : newLen o.truncate o.resize (if o.openOptions.truncate then [] else text).length =
        newLen o.truncate o.resize text.length := by
      rw [tr]; cases o.truncate <;> rfl
    have hft : fitted o.truncate o.resize (if o.openOptions.truncate then [] else text) =
        fitted o.truncate o.resize text := by
      unfold fitted
      rw [hnl, tr]; cases o.truncate <;> rfl
    obtain ⟨k2, r2, e2, w2, nm2, fd2, pg2, or2, er2, no2, ok2⟩ := mapped tab w1 fits f1 t1
      (by split; exact t.lim_pos; exact small) sh len
    rw [hnl] at no2
    simp only [hnl, hft] at ok2
    cases r2 with
    | error e =>
      refine ⟨k2.close fd, .error e, by simp only [Options.openIf, e1, e2, bind, Except.bind]; rfl,
        w2.close fd, pg2.trans pg1, or2.trans or1, ?_, fun fd h => (by cases h), fun m fd h => by cases h⟩
      intro e' he'
      injection he' with he'
      subst he'
      exact er2 _ rfl
    | ok m =>
      refine ⟨k2, .ok (m, fd), by simp only [Options.openIf, e1, e2, bind, Except.bind]; rfl, w2,
        pg2.trans pg1, or2.trans or1, fun e h => (by cases h), ?_, ?_⟩
      · intro fd' h
        injection h with h; injection h with h h'
        subst h
        exact no2 rfl
      · intro m' fd' h
        injection h with h; injection h with h h'
        subst h; subst h'
        obtain ⟨a, b, c, d, e⟩ := ok2 m' rfl
        exact ⟨a, b, x, by rw [nm2]; exact n1, by rw [fd2]; exact f1, c, d, e⟩

/-- `open` on a file with a known text. -/
theorem opened (tab : SysTable) {k : Kernel} (wf : Wf t k) {o : Options} (fits : Fits t o)
    {path : String} {text : List Byte} (was : FileWas k path text) (small : text.length < t.lim)
    (sh : sharedOf o.protect = true) (len : named o.resize < 2 ^ 63)
    (tr : o.openOptions.truncate = o.truncate) :
    ∃ k' r, o.open_ tab t k path = .ok (k', r) ∧ Wf t k' ∧ k'.page = k.page ∧ k'.oracle = k.oracle ∧
      (∀ e, r = .error e → (∃ n, e.rawOsError = some n) ∨
        ¬ InRange (newLen o.truncate o.resize text.length) o.offset o.len) ∧
      (∀ m fd, r = .ok (m, fd) →
        InRange (newLen o.truncate o.resize text.length) o.offset o.len ∧
        m.len = wanted (newLen o.truncate o.resize text.length) o.offset o.len ∧
        ∃ x, k'.names path = some x ∧ k'.fds fd = some ⟨x, true, o.openOptions.write⟩ ∧
          Text k' x (fitted o.truncate o.resize text) ∧
          o.offset + m.len ≤ (fitted o.truncate o.resize text).length ∧
          Sees t k' m x o.offset (decide (o.protect = .readWrite)) ∧
          k'.MapsAll m.ptr m.len x o.offset true o.openOptions.write (protOf o.protect)) := by
  obtain ⟨k1, r1, e1, w1, pg1, or1, er1, no1, ok1⟩ := openedIf tab wf fits was small sh len tr
  obtain ⟨c1, c2, c3, -⟩ := C36_open tab t k o path
  cases r1 with
  | error e =>
    exact ⟨k1, .error e, c2 _ _ e1, w1, pg1, or1, fun e' h => by injection h with h; subst h; exact .inl (er1 _ rfl),
      fun m fd h => by cases h⟩
  | ok y =>
    obtain ⟨m, fd⟩ := y
    cases m with
    | some m =>
      exact ⟨k1, .ok (m, fd), c1 _ _ _ e1, w1, pg1, or1, fun e h => (by cases h),
        fun m' fd' h => by injection h with h; injection h with h h'; subst h; subst h'; exact ok1 _ _ rfl⟩
    | none =>
      obtain ⟨e, he, -⟩ := c3 _ _ e1
      exact ⟨k1.close fd, .error e, he, w1.close fd, pg1, or1, fun e' h => .inr (no1 fd rfl),
        fun m fd h => by cases h⟩

theorem wrapErr_raw {α : Type} {op : Operation} {x : Sys α} {k' : Kernel} {e : Error}
    (h : wrapErr op x = (k', .error e)) : ∃ n, e.rawOsError = some n := by
  obtain ⟨k, r⟩ := x
  cases r with
  | ok a => injection h with _ h; cases h
  | error n => injection h with _ h; injection h with h; exact ⟨n, by rw [← h]; rfl⟩

/-- What making the pages of a map read-write does. -/
theorem Sees.protect {k : Kernel} (wf : Wf t k) {m : MapMut} {x off w} (s : Sees t k m x off w) :
    ∃ k' r p n, (Size.page k).bounds t m.ptr m.len = .ok (p, n) ∧
      Unix.protect k p n .readWrite = (k', r) ∧ Wf t k' ∧ SameButPages k k' ∧
      (∀ text, Text k x text → Text k' x text) ∧
      (∀ e, r = .error e → ∃ n, e.rawOsError = some n) ∧ (r = .ok () → Sees t k' m x off true) := by
  obtain ⟨p, n, g⟩ := s.live
  obtain ⟨mw, prot, hm, hr, -⟩ := s.maps
  obtain ⟨k', r, e1, e2, w', sb, g', -, hc⟩ := protect_whole wf g
  refine ⟨k', r, _, _, e1, e2, w', sb,
    fun text tx => ⟨by rw [sb.size]; exact tx.size, by rw [sb.data]; exact tx.data⟩, ?_, ?_⟩
  · rintro e rfl
    exact wrapErr_raw e2
  · rintro rfl
    rcases hc with ⟨-, h⟩ | ⟨err, h, -⟩
    · exact ⟨⟨p, n, g'⟩, mw, _, (mapsAll_protected wf g sb h hm).1, rfl, fun _ => rfl⟩
    · cases h

/-- `into_map_mut`. -/
theorem Sees.intoMapMut {k : Kernel} (wf : Wf t k) {m : MapMut} {x off w} (s : Sees t k m x off w) :
    ∃ k' r, (Map.mk m).intoMapMut t k = .ok (k', r) ∧ Wf t k' ∧ SameButPages k k' ∧
      (∀ text, Text k x text → Text k' x text) ∧
      (∀ e b, r = .error (e, b) → ∃ n, e.rawOsError = some n) ∧
      (∀ m', r = .ok m' → m' = m ∧ Sees t k' m x off true) := by
  obtain ⟨k', r, p, n, e1, e2, w', sb, tx, raw, ok⟩ := s.protect wf
  cases r with
  | ok _ =>
    exact ⟨k', .ok m, by simp only [Map.intoMapMut, e1, e2, bind, Except.bind]; rfl, w', sb, tx,
      fun e b h => (by cases h), fun m' h => by injection h with h; exact ⟨h.symm, ok rfl⟩⟩
  | error e =>
    exact ⟨k', .error (e, ⟨m⟩), by simp only [Map.intoMapMut, e1, e2, bind, Except.bind]; rfl, w', sb, tx,
      fun e b h => (by injection h with h; injection h with h _; subst h; exact raw _ rfl),
      fun m' h => by cases h⟩

/-- `into_map`. -/
theorem Sees.intoMap {k : Kernel} (wf : Wf t k) {m : MapMut} {x off w} (s : Sees t k m x off w) :
    ∃ k' r, m.intoMap t k = .ok (k', r) ∧ Wf t k' ∧ (∀ text, Text k x text → Text k' x text) ∧
      (∀ e b, r = .error (e, b) → ∃ n, e.rawOsError = some n) ∧
      (∀ m', r = .ok m' → m' = ⟨m⟩ ∧ Sees t k' m x off true) := by
  obtain ⟨k', r, p, n, e1, e2, w', sb, tx, raw, ok⟩ := s.protect wf
  cases r with
  | ok _ =>
    exact ⟨k', .ok ⟨m⟩, by simp only [MapMut.intoMap, e1, e2, bind, Except.bind]; rfl, w', tx,
      fun e b h => (by cases h), fun m' h => by injection h with h; exact ⟨h.symm, ok rfl⟩⟩
  | error e =>
    exact ⟨k', .error (e, m), by simp only [MapMut.intoMap, e1, e2, bind, Except.bind]; rfl, w', tx,
      fun e b h => (by injection h with h; injection h with h _; subst h; exact raw _ rfl),
      fun m' h => by cases h⟩

theorem Spec.Fine.next {α : Type} {x : Exec α} {a : α} {f : α → Exec (Kernel × Result Unit)}
    (h : x = .ok a) (hf : Fine (f a)) : Fine (x >>= f) := by
  subst h; exact hf

/-- Calls that leave pages, lengths and contents alone. -/
theorem Sees.same {k k' : Kernel} {m : MapMut} {x off w} (s : Sees t k m x off w)
    (hp : k'.page = k.page) (hs : k'.size = k.size) (hpt : k'.pt = k.pt) : Sees t k' m x off w := by
  obtain ⟨⟨p, n, g⟩, mw, prot, h, hr⟩ := s
  refine ⟨⟨p, n, by rw [hp]; exact g.pages, by rw [hpt]; exact g.mapped⟩, mw, prot, ?_, hr⟩
  intro i hi
  have := h i hi
  simp only [Kernel.Maps, Kernel.backed, hp, hs, hpt] at this ⊢
  exact this

theorem Spec.Text.same {k k' : Kernel} {x : Obj} {text : List Byte} (tx : Text k x text)
    (hs : k'.size = k.size) (hd : k'.data = k.data) : Text k' x text :=
  ⟨by rw [hs]; exact tx.size, by rw [hd]; exact tx.data⟩

/-- `flush_range`. -/
theorem Sees.flushRange {k : Kernel} (wf : Wf t k) {m : MapMut} {x off w} (s : Sees t k m x off w)
    {a l : Nat} (h : a + l ≤ m.len) (mode : FlushMode) :
    ∃ k' r, m.flushRange t k a l mode = .ok (k', r) ∧ Wf t k' ∧ Sees t k' m x off w ∧
      (∀ text, Text k x text → Text k' x text) ∧ (∀ e, r = .error e → ∃ n, e.rawOsError = some n) := by
  obtain ⟨p, n, g⟩ := s.live
  obtain ⟨k', r, e, -, o, hpt, -⟩ := flush_fx k wf.page_pos (pg k (m.ptr + a)) (npg k (m.ptr + a) l) mode
  refine ⟨k', r, by rw [flushRange_eq, rangeOp_in wf g.pages h, e], o.wf wf, s.same o.page o.size hpt,
    fun text tx => tx.same o.size o.data, ?_⟩
  rintro er rfl
  exact wrapErr_raw e

/-- `flush`. -/
theorem Sees.flush {k : Kernel} (wf : Wf t k) {m : MapMut} {x off w} (s : Sees t k m x off w)
    (mode : FlushMode) :
    ∃ k' r, m.flush t k mode = .ok (k', r) ∧ Wf t k' ∧ Sees t k' m x off w ∧
      (∀ text, Text k x text → Text k' x text) ∧ (∀ e, r = .error e → ∃ n, e.rawOsError = some n) := by
  obtain ⟨p, n, g⟩ := s.live
  rw [(whole_range wf g.pages).1]
  exact s.flushRange wf (by omega) mode

/-- `advise`, other than telling that the bytes are not needed. -/
theorem Sees.advise {k : Kernel} (wf : Wf t k) {m : MapMut} {x off w} (s : Sees t k m x off w)
    {adv : Advise} (ha : adv ≠ .willNotNeed) :
    ∃ k' r, m.advise t k adv = .ok (k', r) ∧ Wf t k' ∧ Sees t k' m x off w ∧
      (∀ text, Text k x text → Text k' x text) ∧ (∀ e, r = .error e → ∃ n, e.rawOsError = some n) := by
  obtain ⟨p, n, g⟩ := s.live
  obtain ⟨k', r, e, -, o, -, hpt, -⟩ := advise_fx k wf.page_pos (pg k (m.ptr + 0)) (npg k (m.ptr + 0) m.len) adv
  refine ⟨k', r, by rw [(whole_range wf g.pages).2.1, adviseRange_eq, rangeOp_in wf g.pages (by omega), e],
    o.wf wf, s.same o.page o.size (hpt (.inr ha)), fun text tx => tx.same o.size o.data, ?_⟩
  rintro er rfl
  exact wrapErr_raw e

/-- An allocation. -/
theorem alloced {k : Kernel} (wf : Wf t k) {o : Options} (rw_ : o.protect = .readWrite) (off : o.offset = 0)
    (fits : AllocFits t k.page 0 o.len) :
    ∃ k' r, o.alloc t k = .ok (k', r) ∧ Wf t k' ∧ k'.page = k.page ∧
      (∀ e, r = .error e → ∃ n, e.rawOsError = some n) ∧
      (∀ m, r = .ok m → AllocLen k.page 0 o.len m.len ∧ ∃ x text, Text k' x text ∧
        0 + m.len ≤ text.length ∧ Sees t k' m x 0 true) := by
  obtain ⟨len, hl, hc, -⟩ := alloc_cases wf o (by rw [off, Nat.zero_mod]; exact fits)
  rw [off, Nat.zero_mod] at hl hc
  rcases hc with ⟨e, he⟩ | ⟨p, k1, -, -, -, -, hk1, w1, c, he⟩
  · exact ⟨_, _, he, wf.same rfl rfl rfl rfl rfl rfl, rfl,
      fun e' h => (by injection h with h; subst h; exact ⟨e, rfl⟩), fun m h => by cases h⟩
  · have hpg : k1.page = k.page := by rw [hk1]; rfl
    refine ⟨_, _, he, w1, hpg, fun e h => (by cases h), ?_⟩
    intro m hm
    injection hm with hm
    subst hm
    have hpp := wf.page_pos
    refine ⟨hl, k.fresh, List.replicate (k.pages len * k.page) 0, ⟨?_, ?_⟩, ?_, ⟨p, _, by rw [hpg]; exact c.pages,
      fun q a b => ?_⟩, _, _, by have := c.maps; rw [rw_] at this; exact this, rfl, fun _ => rfl⟩
    · rw [hk1, List.length_replicate]; simp [anonState]
    · intro i hi
      rw [hk1]
      rw [List.length_replicate] at hi
      simp [anonState, List.getD_eq_getElem?_getD, hi]
    · rw [List.length_replicate, pages_eq]
      have := (isRoundUp_div (len := len) hpp).2.1
      simp only; omega
    · obtain ⟨e, he, -⟩ := c.mapped q a b
      exact ⟨e, he⟩

/-- `opened`, with the figures worked out. -/
theorem openedAs (tab : SysTable) {k : Kernel} (wf : Wf t k) {o : Options} (fits : Fits t o)
    {path : String} {text : List Byte} (was : FileWas k path text) (small : text.length < t.lim)
    (sh : sharedOf o.protect = true) (len : named o.resize < 2 ^ 63)
    (tr : o.openOptions.truncate = o.truncate) {size n : Nat} {new : List Byte}
    (hsize : newLen o.truncate o.resize text.length = size) (hin : InRange size o.offset o.len)
    (hn : wanted size o.offset o.len = n) (hnew : fitted o.truncate o.resize text = new) :
    ∃ k' r, o.open_ tab t k path = .ok (k', r) ∧ Wf t k' ∧ k'.page = k.page ∧
      (∀ e, r = .error e → ∃ n, e.rawOsError = some n) ∧
      (∀ m fd, r = .ok (m, fd) → m.len = n ∧
        ∃ x, k'.names path = some x ∧ k'.fds fd = some ⟨x, true, o.openOptions.write⟩ ∧
          Text k' x new ∧ o.offset + m.len ≤ new.length ∧
          Sees t k' m x o.offset (decide (o.protect = .readWrite))) := by
  obtain ⟨k1, r1, e1, w1, pg1, -, er1, ok1⟩ := opened tab wf fits was small sh len tr
  rw [hsize] at er1
  rw [hsize, hn, hnew] at ok1
  refine ⟨k1, r1, e1, w1, pg1, fun e h => (er1 e h).resolve_right (fun h' => h' hin), fun m fd h => ?_⟩
  obtain ⟨-, a, x, b, c, d, e, f, -⟩ := ok1 m fd h
  exact ⟨a, x, b, c, d, e, f⟩

/-- Opening with `create_new` what is already there. -/
theorem open_there (tab : SysTable) {k : Kernel} {o : Options} {path : String} {x : Obj}
    (there : k.names path = some x) (new : o.openOptions.createNew = true) :
    ∃ k' e, o.open_ tab t k path = .ok (k', .error e) := by
  have out := open_outcome tab k o.openOptions path
  obtain ⟨⟨k', r⟩, hx⟩ : ∃ x, x = o.openOptions.open tab k path := ⟨_, rfl⟩
  rw [← hx] at out
  obtain ⟨-, c2, -⟩ := C36_open tab t k o path
  have key : ∃ e, r = .error e := by
    cases out with
    | refused write asks => exact ⟨_, rfl⟩
    | failed e writable => exact ⟨_, rfl⟩
    | existing _ x name new' => rw [new] at new'; cases new'
    | created name => rw [there] at name; cases name
  obtain ⟨e, rfl⟩ := key
  exact ⟨k', _, c2 k' (Options.mapFileErr e) (by simp only [Options.openIf, ← hx]; rfl)⟩

theorem lim_small {n : Nat} (h : n < 2 ^ 32 := by decide) : n < t.lim := by
  rcases t.lim_cases with e | e <;> rw [e]
  · exact h
  · exact Nat.lt_trans h (by decide)

/-- Dropping a map that is not empty. -/
theorem Sees.dropHere {k : Kernel} (wf : Wf t k) {m : MapMut} {x off w} (s : Sees t k m x off w)
    (pos : 0 < m.len) :
    ∃ k', m.drop t k = .ok k' ∧ Wf t k' ∧ k'.page = k.page ∧ k'.names = k.names ∧
      k'.size = k.size ∧ k'.data = k.data ∧ k'.oracle = k.oracle ∧
      (∀ q, m.ptr / k.page ≤ q → q * k.page < m.ptr + m.len → k'.pt q = none) ∧
      k'.fds = k.fds := by
  obtain ⟨p, n, g⟩ := s.live
  have e := drop_eq (t := t) (k := k) wf.page (m := m) (p := p) (n := n) g.pages pos
  refine ⟨_, e, ?_, rfl, rfl, rfl, rfl, rfl, ?_, rfl⟩
  · refine wf.sub rfl ?_ (fun _ _ h => h) (fun _ _ h => h) (Nat.le_refl _) (Nat.le_refl _)
    intro q e h
    simp only at h
    split at h
    · cases h
    · exact h
  · intro q h1 h2
    have hpp := wf.page_pos
    have hp : m.ptr / k.page = p := by
      rw [Nat.div_eq_iff hpp]
      have := g.pages.lower; have := g.pages.lower'
      omega
    refine if_pos ⟨by omega, ?_⟩
    have := g.pages.upper
    exact Nat.lt_of_mul_lt_mul_right (a := k.page) (by omega)

/-- Dropping a map that is not empty, after its file was closed. -/
theorem Sees.drop {k : Kernel} (wf : Wf t k) {m : MapMut} {x off w} (s : Sees t k m x off w)
    (pos : 0 < m.len) (fd : Nat) :
    ∃ k', m.drop t (k.close fd) = .ok k' ∧ Wf t k' ∧ k'.page = k.page ∧ k'.names = k.names ∧
      k'.size = k.size ∧ k'.data = k.data ∧ k'.oracle = k.oracle ∧
      (∀ q, m.ptr / k.page ≤ q → q * k.page < m.ptr + m.len → k'.pt q = none) := by
  obtain ⟨k', a, b, c, d, e, f, g, h, -⟩ :=
    Sees.dropHere (k := k.close fd) (wf.close fd) (s.same rfl rfl rfl) pos
  exact ⟨k', a, b, c, d, e, f, g, h⟩

/-- All pages of a map that may be made writable. -/
theorem Kernel.Live.mayWrite {k : Kernel} (wf : Wf t k) {m : MapMut} {p n : Nat} (g : Live t k m p n)
    (pos : 0 < m.len) {x off sh prot} (ma : k.MapsAll m.ptr m.len x off sh true prot) :
    ∀ q e, p ≤ q → q < p + n → k.pt q = some e → e.mayWrite = true := by
  intro q e h1 h2 he
  have hpp := wf.page_pos
  have a1 := g.pages.lower
  have a2 := g.pages.lower'
  have a4 := g.pages.upper'
  have b1 : p * k.page ≤ q * k.page := Nat.mul_le_mul_right _ h1
  have b2 : (q + 1) * k.page ≤ (p + n) * k.page := Nat.mul_le_mul_right _ h2
  rw [Nat.add_mul q, Nat.one_mul] at b2
  have key : ∃ i, i < m.len ∧ (m.ptr + i) / k.page = q := by
    by_cases h : q = p
    · exact ⟨0, pos, by rw [Nat.div_eq_iff hpp, h]; omega⟩
    · have b3 : (p + 1) * k.page ≤ q * k.page := Nat.mul_le_mul_right _ (by omega)
      rw [Nat.add_mul, Nat.one_mul] at b3
      exact ⟨q * k.page - m.ptr, by omega, by rw [Nat.div_eq_iff hpp]; omega⟩
  obtain ⟨i, hi, hq⟩ := key
  obtain ⟨e', c1, -, -, -, c2, -⟩ := ma i hi
  rw [hq, he] at c1
  injection c1 with c1
  rw [c1]; exact c2

theorem _root_.Vmap.Spec.Grants.willing {k : Kernel} {p n : Nat} (g : Grants t k p n) : Willing t k p n :=
  ⟨fun i _ => g.ok i, fun i _ => g.place i, g.free, g.top, g.bottom⟩

/-- `open_if` of an existing file for reading when the system grants it. -/
theorem granted (tab : SysTable) {k : Kernel} (wf : Wf t k) {o : Options} (fits : Fits t o)
    {path : String} {text : List Byte} (has : FileHas k path text) (small : text.length < t.lim)
    (sh : sharedOf o.protect = true)
    (st : o.protect = .readWrite → o.openOptions.write = true) (res : o.resize = .endOf) (tr : o.truncate = false) (off : o.offset = 0)
    (new : o.openOptions.createNew = false) (otr : o.openOptions.truncate = false)
    (cr : o.openOptions.create = false) {p n : Nat}
    (g : Grants t k p n) (len : 0 < wanted text.length 0 o.len)
    (room : (wanted text.length 0 o.len + k.page - 1) / k.page ≤ n) :
    ∃ k' m fd, o.openIf tab t k path = .ok (k', .ok (m, fd)) ∧ Wf t k' ∧ k'.page = k.page ∧
      k'.oracle = k.oracle ∧ (InRange text.length 0 o.len ↔ m ≠ none) ∧
      ∀ m', m = some m' → m'.ptr = p * k.page ∧ m'.len = wanted text.length 0 o.len ∧
        ∃ x, k'.names path = some x ∧ k'.fds fd = some ⟨x, true, o.openOptions.write⟩ ∧
          Text k' x text ∧ Sees t k' m' x 0 (decide (o.protect = .readWrite)) ∧
          k'.MapsAll m'.ptr m'.len x 0 true o.openOptions.write (protOf o.protect) := by
  obtain ⟨x, nm, tx⟩ := has
  have hnl : newLen o.truncate o.resize text.length = text.length := by rw [tr, res]; rfl
  have hft : fitted o.truncate o.resize text = text := by
    unfold fitted
    rw [hnl, tr]
    simp
  obtain ⟨k1, r1, e1, w1, pg1, or1, er1, no1, ok1⟩ := openedIf tab wf fits (.inl ⟨x, nm, tx⟩) small
    sh (by rw [res]; decide) (by rw [otr, tr])
  have C := C133_open_if tab wf g.willing fits (path := path) (old := text.length)
    ⟨by rw [otr, cr, new]; simp, .inl ⟨x, nm, new, by rw [otr]; exact tx.size.symm⟩⟩ small
    ⟨st, by rw [tr, res]; simp, by rw [res]; decide, by
      rw [off]; rcases t.lim_cases with e | e <;> rw [e] <;> decide, by
      rw [hnl, off]; intro _; omega⟩ (by rw [hnl, off, Nat.zero_mod]; exact room)
  rw [hnl, off] at C no1 ok1
  rw [hft] at ok1
  obtain ⟨C1, C2⟩ := C
  by_cases hin : InRange text.length 0 o.len
  · obtain ⟨k2, e2⟩ := C1 hin
    rw [e1] at e2
    obtain ⟨rfl, rfl⟩ := ok_pair e2
    refine ⟨k1, _, _, e1, w1, pg1, or1, ⟨fun _ h => (by cases h), fun _ => hin⟩, ?_⟩
    intro m' hm'
    injection hm' with hm'
    obtain ⟨-, b, x', c, d, e, -, f, f'⟩ := ok1 m' _ (by rw [hm'])
    exact ⟨by rw [← hm']; simp, b, x', c, d, e, f, f'⟩
  · obtain ⟨k2, e2⟩ := C2 hin
    rw [e1] at e2
    obtain ⟨rfl, rfl⟩ := ok_pair e2
    exact ⟨k1, _, _, e1, w1, pg1, or1, ⟨fun h => absurd h hin, fun h => absurd rfl h⟩,
      fun m' h => by cases h⟩

/-- After the map was dropped the system grants as before. -/
theorem _root_.Vmap.Spec.Grants.again {k k' : Kernel} {p n : Nat} (wf : Wf t k) (g : Grants t k p n)
    (hp : k'.page = k.page) (ho : k'.oracle = k.oracle) {ptr len : Nat} (hptr : ptr = p * k.page)
    (hn : (len + k.page - 1) / k.page = n)
    (hpt : ∀ q, ptr / k.page ≤ q → q * k.page < ptr + len → k'.pt q = none) : Grants t k' p n := by
  have hpp := wf.page_pos
  refine ⟨by rw [ho]; exact g.ok, by rw [ho]; exact g.place, ?_, by rw [hp]; exact g.top, g.bottom⟩
  intro q h1 h2
  apply hpt
  · rw [hptr, Nat.mul_div_cancel _ hpp]; exact h1
  · have h3 : q - p + 1 ≤ (len + k.page - 1) / k.page := by omega
    rw [Nat.le_div_iff_mul_le hpp, Nat.add_mul, Nat.one_mul, Nat.sub_mul] at h3
    have h4 : p * k.page ≤ q * k.page := Nat.mul_le_mul_right _ h1
    omega

theorem Spec.Good.next {α : Type} {x : Exec α} {a : α} {f : α → Exec (Kernel × Result Unit)}
    (h : x = .ok a) (hf : Good (f a)) : Good (x >>= f) := by
  subst h; exact hf

/-- `map_if` of some first bytes of an open file when the system grants it. -/
theorem grantedMap (tab : SysTable) {k : Kernel} (wf : Wf t k) {fd : Nat} {x : Obj} {wr : Bool}
    (file : k.fds fd = some ⟨x, true, wr⟩) {text : List Byte} (tx : Text k x text)
    (small : text.length < t.lim) {p l : Nat} (g : Grants t k p 1) (pos : 0 < l) (le : l ≤ k.page)
    (fits : l < t.lim) :
    ∃ k' m, (Options.new.setLen (.exact l)).mapIf tab t k fd = .ok (k', .ok m) ∧ Wf t k' ∧
      k'.page = k.page ∧ k'.oracle = k.oracle ∧ k'.fds = k.fds ∧ (l ≤ text.length ↔ m ≠ none) ∧
      ∀ m', m = some m' → m'.ptr = p * k.page ∧ m'.len = l ∧ Text k' x text ∧ Sees t k' m' x 0 false := by
  have hpp := wf.page_pos
  have one : (l + k.page - 1) / k.page = 1 := by
    rw [Nat.div_eq_iff hpp]; omega
  have half : 0 < t.lim / 2 := by rcases t.lim_cases with e | e <;> rw [e] <;> decide
  have F : Fits t (Options.new.setLen (.exact l)) := ⟨trivial, fits, t.lim_pos⟩
  obtain ⟨k1, r1, e1, w1, nm1, fd1, pg1, or1, er1, no1, ok1⟩ := mapped tab wf F file tx small rfl (by show 0 < 2 ^ 63; decide)
  have hft : fitted false .endOf text = text := by simp [fitted, newLen]
  have C := C133_map_if tab wf g.willing F file rfl (by rw [tx.size]; exact small)
    ⟨fun h => (by cases h), fun h => (by rcases h with h | h; cases h; exact absurd rfl h), by show 0 < 2 ^ 63; decide, half,
      fun _ => by show 0 < l + 0 % k.page; omega⟩
    (by show (l + 0 % k.page + k.page - 1) / k.page ≤ 1; rw [Nat.zero_mod]; exact Nat.le_of_eq one)
  have hsz : newLen false .endOf (k.size x) = text.length := tx.size
  obtain ⟨C1, C2⟩ := C
  by_cases hin : l ≤ text.length
  · obtain ⟨k2, e2⟩ := C1 (by show 0 + l ≤ k.size x; rw [tx.size]; omega)
    rw [e1] at e2
    obtain ⟨rfl, rfl⟩ := ok_pair e2
    refine ⟨k1, _, e1, w1, pg1, or1, fd1, ⟨fun _ h => (by cases h), fun _ => hin⟩, ?_⟩
    intro m' hm'
    injection hm' with hm'
    obtain ⟨-, b, c, -, d, -⟩ := ok1 m' (by rw [hm'])
    exact ⟨by rw [← hm']; show p * k.page + 0 % k.page = _; rw [Nat.zero_mod, Nat.add_zero], b, by
      have c : Text k1 x (fitted false .endOf text) := c
      rwa [hft] at c, d⟩
  · obtain ⟨k2, e2⟩ := C2 (by show ¬ 0 + l ≤ k.size x; rw [tx.size]; omega)
    rw [e1] at e2
    obtain ⟨rfl, rfl⟩ := ok_pair e2
    exact ⟨k1, _, e1, w1, pg1, or1, fd1, ⟨fun h => absurd h hin, fun h => absurd rfl h⟩, fun m' h => by cases h⟩

/-- Opening a copy-on-write map of a part of a file. -/
theorem openedCopyAt (tab : SysTable) {k : Kernel} (wf : Wf t k) {path : String} {x : Obj} {text : List Byte}
    {off : Nat} {ext : Extent}
    (nm : k.names path = some x) (tx : Text k x text) (small : text.length < t.lim) {o : Options}
    (ho : o = ((Options.newMut.setOffset off).setLen ext).copy) (fits : Fits t o) (hin : InRange text.length off ext) :
    ∃ k' r, o.open_ tab t k path = .ok (k', r) ∧ Wf t k' ∧
      (∀ e, r = .error e → ∃ n, e.rawOsError = some n) ∧
      ∀ m fd, r = .ok (m, fd) → m.len = wanted text.length off ext ∧ k'.page = k.page ∧ k'.names = k.names ∧ Text k' x text ∧
        k'.MapsAll m.ptr m.len x off false true ⟨true, true, false⟩ ∧
        (∀ i, i < m.len → k.pt ((m.ptr + i) / k.page) = none ∧
          ∃ e, k'.pt ((m.ptr + i) / k.page) = some e ∧ e.copy = none) ∧
        (∀ q e, k.pt q = some e → k'.pt q = some e) ∧ k'.size = k.size := by
  obtain ⟨o1, o2, o3, o4, o5⟩ : o.resize = .endOf ∧ o.offset = off ∧ o.len = ext ∧ o.truncate = false ∧ o.protect = .readCopy := by subst ho; exact ⟨rfl, rfl, rfl, rfl, rfl⟩
  obtain ⟨c1, c2, c3, -⟩ := C36_open tab t k o path
  have out := open_outcome tab k o.openOptions path
  obtain ⟨⟨k1, r1⟩, hx⟩ : ∃ x, x = o.openOptions.open tab k path := ⟨_, rfl⟩
  rw [← hx] at out
  have out : OpenOutcome tab k o.openOptions path k1 r1 := out
  have w1 : Wf t k1 := out.wf wf
  have bad : ∀ e, r1 = .error e → (∃ n, e.os = some n) → ∃ k' r, o.open_ tab t k path = .ok (k', r) ∧
      Wf t k' ∧ (∀ e, r = .error e → ∃ n, e.rawOsError = some n) ∧ ∀ m fd, r ≠ .ok (m, fd) := by
    rintro e rfl ⟨n, hn⟩
    refine ⟨k1, .error (Options.mapFileErr e), c2 _ _ (by simp only [Options.openIf, ← hx]; rfl), w1, ?_,
      fun m fd h => by cases h⟩
    intro e' he'
    injection he' with he'
    subst he'
    exact ⟨n, hn⟩
  have bad' : (∃ e, r1 = .error e ∧ ∃ n, e.os = some n) → ∃ k' r, o.open_ tab t k path = .ok (k', r) ∧
      Wf t k' ∧ (∀ e, r = .error e → ∃ n, e.rawOsError = some n) ∧
      ∀ m fd, r = .ok (m, fd) → m.len = wanted text.length off ext ∧ k'.page = k.page ∧ k'.names = k.names ∧ Text k' x text ∧
        k'.MapsAll m.ptr m.len x off false true ⟨true, true, false⟩ ∧
        (∀ i, i < m.len → k.pt ((m.ptr + i) / k.page) = none ∧
          ∃ e, k'.pt ((m.ptr + i) / k.page) = some e ∧ e.copy = none) ∧
        (∀ q e, k.pt q = some e → k'.pt q = some e) ∧ k'.size = k.size := by
    rintro ⟨e, h1, h2⟩
    obtain ⟨k', r, a, b, c, d⟩ := bad e h1 h2
    exact ⟨k', r, a, b, c, fun m fd h => absurd h (d m fd)⟩
  cases out with
  | refused write asks => exact bad' ⟨_, rfl, _, rfl⟩
  | failed e writable => exact bad' ⟨_, rfl, _, rfl⟩
  | created name => rw [nm] at name; cases name
  | existing _ x' name new writable state others keep trunc =>
    rw [nm] at name
    injection name with name
    subst name
    obtain ⟨sz1, dt1⟩ := keep (by subst ho; rfl)
    have pg1 : k1.page = k.page := by rw [state]
    have nm1 : k1.names = k.names := by rw [state]
    have pt1 : k1.pt = k.pt := by rw [state]
    have fd1 : k1.fds k.nextFd = some ⟨x, true, o.openOptions.write⟩ := by
      rw [state]; exact if_pos rfl
    obtain ⟨k2, r2, e2, g⟩ := mapIf_keeps tab w1 fits (fd := k.nextFd)
    have hmod : text.length = k1.size x % t.lim := by
      rw [sz1, tx.size]; exact (Nat.mod_eq_of_lt small).symm
    obtain ⟨k3, r3, l3, h3, -, -, hyes⟩ := C32_exact tab t k1 w1 _ fits k.nextFd _ fd1 text.length hmod
    rw [e2] at h3
    obtain ⟨rfl, rfl⟩ := ok_pair h3
    obtain ⟨k4, r4, l4, h4, -, hres⟩ := C35_exact tab t k1 w1 _ fits k.nextFd _ fd1 text.length hmod
    rw [e2] at h4
    obtain ⟨rfl, rfl⟩ := ok_pair h4
    rw [o1, o2, o3, o4] at hyes
    rw [o1, o4] at hres
    have raw : ∀ l e, LengthError tab l .endOf e → ∃ n, e.rawOsError = some n := by
      rintro l e (⟨c, errno, rest, -, rfl⟩ | ⟨n, msg, hn, -, -⟩)
      · exact ⟨errno, rfl⟩
      · rcases hn with h | h | h <;> cases h
    cases r2 with
    | error e =>
      refine ⟨k2.close k.nextFd, .error e, c2 _ e (by
        simp only [Options.openIf, ← hx, e2, bind, Except.bind]; rfl), g.wf.close _, ?_, fun m fd h => by cases h⟩
      intro e' he'
      rcases hyes hin with ⟨m, h, -⟩ | ⟨e1, h, h'⟩ | ⟨c, errno, rest, h, -⟩
      · cases h
      · injection h with h; injection he' with he'; subst h; subst he'; exact raw _ _ h'
      · injection h with h; injection he' with he'; subst h; subst he'; exact ⟨errno, rfl⟩
    | ok m =>
    cases m with
    | none =>
      exfalso
      rcases hyes hin with ⟨m, h, -⟩ | ⟨e, h, -⟩ | ⟨c, errno, rest, h, -⟩ <;> cases h
    | some m =>
      have hl : m.len = wanted text.length off ext := by
        rcases hyes hin with ⟨m', h, h'⟩ | ⟨e, h, -⟩ | ⟨c, errno, rest, h, -⟩
        · injection h with h; injection h with h; rw [h]; exact h'
        · cases h
        · cases h
      have rs : Resized k1 k2 x (k1.size x) (k1.size x) := by
        rcases hres with ⟨e, h, -⟩ | h
        · cases h
        · exact h
      obtain ⟨f, p, n, hf, -, -, -, c⟩ := g.made m rfl
      rw [fd1] at hf
      injection hf with hf
      subst hf
      have cm := c.maps
      rw [o2, o5] at cm
      refine ⟨k2, .ok (m, k.nextFd), c1 _ _ _ (by
        simp only [Options.openIf, ← hx, e2, bind, Except.bind]; rfl), g.wf, fun e h => (by cases h), ?_⟩
      intro m' fd h
      injection h with h
      injection h with h h'
      subst h
      have hsz : k2.size = k.size := by
        funext o
        by_cases ho : o = x
        · rw [ho, rs.size, sz1]
        · rw [(g.files o (fun f hf => by rw [fd1] at hf; injection hf with hf; rw [← hf]; exact ho)).1, sz1]
      refine ⟨hl, g.page.trans pg1, g.names.trans nm1, ⟨by rw [hsz]; exact tx.size, ?_⟩, cm, ?_, ?_, hsz⟩
      · intro i hi
        have : i < k1.size x := by rw [sz1, tx.size]; exact hi
        rw [rs.kept i this this, dt1]
        exact tx.data i hi
      · intro i hi
        have hpp := w1.page_pos
        obtain ⟨s1, s2, -⟩ := c.pages.sub hpp (off := i) (l := 1) (by omega)
        have hpg : 1 ≤ k1.pages (1 + (m.ptr + i) % k1.page) := by
          rw [pages_eq, Nat.le_div_iff_mul_le hpp]; omega
        have hlt : (m.ptr + i) / k1.page < p + n := by omega
        obtain ⟨e, h1, h2, -⟩ := c.mapped _ s1 hlt
        rw [pg1] at s1 hlt h1
        exact ⟨by rw [← pt1]; exact c.free _ s1 hlt, e, h1, h2⟩
      · intro q e he
        rw [c.others q, pt1, he]
        intro ⟨h1, h2⟩
        have := c.free q h1 h2
        rw [pt1, he] at this
        cases this

/-- Opening a copy-on-write map of a whole file. -/
theorem openedCopy (tab : SysTable) {k : Kernel} (wf : Wf t k) {path : String} {x : Obj} {text : List Byte}
    (nm : k.names path = some x) (tx : Text k x text) (small : text.length < t.lim) :
    ∃ k' r, Options.newMut.copy.open_ tab t k path = .ok (k', r) ∧ Wf t k' ∧
      (∀ e, r = .error e → ∃ n, e.rawOsError = some n) ∧
      ∀ m fd, r = .ok (m, fd) → m.len = text.length ∧ k'.page = k.page ∧ k'.names = k.names ∧ Text k' x text ∧
        k'.MapsAll m.ptr m.len x 0 false true ⟨true, true, false⟩ ∧
        (∀ i, i < m.len → k.pt ((m.ptr + i) / k.page) = none ∧
          ∃ e, k'.pt ((m.ptr + i) / k.page) = some e ∧ e.copy = none) ∧
        (∀ q e, k.pt q = some e → k'.pt q = some e) ∧ k'.size = k.size :=
  openedCopyAt tab (off := 0) (ext := .endOf) wf nm tx small rfl ⟨trivial, trivial, t.lim_pos⟩ (Nat.zero_le _)

end Vmap
