import Verif.Proofs.WinDocSys
import Verif.Props.WinDocMap
import Verif.Props.WinWorks
/-
C160, continued: the examples in the documentation of maps that assert that a call succeeds, where Windows
grants it; and that of `Options::copy`.
-/
namespace Vmap
open Spec

variable {t : Target} {k : WinFs} {path : String}

theorem Spec.WinDone.next {α : Type} {x : Exec α} {a : α} {f : α → Exec (WinFs × Result Unit)}
    (h : x = .ok a) (hf : WinDone (f a)) : WinDone (x >>= f) := by
  subst h; exact hf

/-- What is left of the file after a map of it was dropped. -/
private theorem after_drop {k : WinFs} {s : Vmap.Win} {f : Nat} {text : List Byte} (tx : WinText k.win f text)
    (files : s.files = k.win.files) (bytes : s.bytes = k.win.bytes) : WinText s f text :=
  ⟨by rw [files]; exact tx.size, fun i hi => by rw [bytes]; exact tx.data i hi⟩

/-- The first half of the examples of `open` and `open_if`. -/
private theorem open_first (tab : SysTable) (g : WinGood t k) (has : WinFileHas k path DocMap.this) {addr : Nat}
    (sys : WinWilling t k.win addr 4) (agrees : WinAgrees k) :
    ∃ k1 m k2, k.openIf tab t (Options.new.setLen (.exact 4)) path = .ok (k1, .ok (some m, k.nextHandle)) ∧
      WinDocMap.drop t (k1.close k.nextHandle) m = .ok k2 ∧ WinGood t k2 ∧ WinFileHas k2 path DocMap.this ∧
      WinAgrees k2 := by
  obtain ⟨f, nm, tx⟩ := has
  obtain ⟨c, -⟩ := C133_windows_open_if tab g.wf sys (o := Options.new.setLen (.exact 4)) (path := path)
    ⟨trivial, lim_small, t.lim_pos⟩ (old := 14)
    ⟨agrees.asks, (fun h => by rcases h with h | h | h <;> cases h), .inl ⟨f, 14, nm, tx.size, rfl, rfl⟩⟩ lim_small
    ⟨(fun h => by cases h), (fun h => by rcases h with h | h | h <;> first | cases h | exact absurd rfl h), (by decide), fun _ => by
      show 0 < 4 + _; omega⟩ (by show 4 + 0 % k.win.gran ≤ 4; rw [Nat.zero_mod]; decide)
  obtain ⟨k0, e0⟩ := c (by show 0 + 4 ≤ 14; decide)
  obtain ⟨k1, r1, e1, g1, kp1, er1, -, ok1⟩ := winOpenedIf tab g (o := Options.new.setLen (.exact 4))
    ⟨trivial, lim_small, t.lim_pos⟩ (.inl ⟨f, nm, tx⟩) lim_small rfl
  have st := openIf_steady tab g.wf rfl rfl (fun h => by cases h) e0
  rw [e0] at e1
  cases e1
  obtain ⟨f', nm', -, tx', hm⟩ := ok1 _ _ rfl
  obtain ⟨-, hl, -, hv⟩ := hm _ rfl
  obtain ⟨v, -, s, -⟩ := hv (by rw [hl]; show 0 < 4; decide)
  obtain ⟨s2, e2, g2, by2, fi2, -⟩ := s.drop (k := k0.close k.nextHandle) (g1.close _)
  have st2 := drop_steady e2
  exact ⟨k0, _, _, e0, e2, g2, ⟨f', nm', after_drop (k := k0) tx' fi2 by2⟩,
    agrees.steady (st.trans ⟨st2.oracle, st2.asks, st2.names⟩)⟩

/-- C160: `Options::open` succeeds for a range inside the file and fails for one beyond it. -/
theorem C160_open (tab : SysTable) (g : WinGood t k) (has : WinFileHas k path DocMap.this) {addr : Nat}
    (sys : WinWilling t k.win addr 4) (agrees : WinAgrees k) : WinDone (WinDocMap.opening tab t k path) := by
  obtain ⟨k1, m, k2, e1, e2, g2, has2, -⟩ := open_first tab g has sys agrees
  refine .next (C158_open tab e1) ?_
  refine .next (a := ()) rfl ?_
  refine .next (a := _) e2 ?_
  obtain ⟨k3, r3, e3, g3, -, -, ok3⟩ := winOpened tab g2 (o := Options.new.setLen (.exact 25))
    ⟨trivial, lim_small, t.lim_pos⟩ (.inl has2) lim_small rfl
  refine .next e3 ?_
  cases r3 with
  | ok y =>
    obtain ⟨-, -, -, -, h, -⟩ := ok3 y.1 y.2 rfl
    exact absurd h (by show ¬ 0 + 25 ≤ 14; decide)
  | error e => exact .next (a := ()) rfl ⟨_, rfl⟩

example : WinDone (WinDocMap.opening docTab ⟨.w64, true⟩ (winKindDir DocMap.this) "data") :=
  C160_open docTab (winKindDir_good _) (winKindDir_has _) ((winKindDir_willing _).less (by decide)) (winKindDir_agrees _)

example : winEnded (WinDocMap.opening docTab ⟨.w64, true⟩ (winKindDir DocMap.this) "data") = true := by
  decide +kernel

/-- C160: `Options::open_if` gives a map for a range inside the file and none for one beyond it. -/
theorem C160_open_if (tab : SysTable) (g : WinGood t k) (has : WinFileHas k path DocMap.this) {addr : Nat}
    (sys : WinWilling t k.win addr 4) (agrees : WinAgrees k) : WinDone (WinDocMap.openingIf tab t k path) := by
  obtain ⟨k1, m, k2, e1, e2, g2, has2, ag2⟩ := open_first tab g has sys agrees
  refine .next e1 ?_
  refine .next (a := ()) rfl ?_
  refine .next (a := _) e2 ?_
  obtain ⟨k3, e3⟩ := openIf_none tab g2.wf ag2 (l := 25) has2 lim_small (by decide)
  refine .next e3 ?_
  exact .next (a := ()) rfl (.next (a := ()) rfl ⟨_, rfl⟩)

example : WinDone (WinDocMap.openingIf docTab ⟨.w64, true⟩ (winKindDir DocMap.this) "data") :=
  C160_open_if docTab (winKindDir_good _) (winKindDir_has _) ((winKindDir_willing _).less (by decide)) (winKindDir_agrees _)

example : winEnded (WinDocMap.openingIf docTab ⟨.w64, true⟩ (winKindDir DocMap.this) "data") = true := by
  decide +kernel

/-- The first half of the examples of `map` and `map_if`. -/
private theorem map_first (tab : SysTable) (g : WinGood t k) {fd f : Nat} (file : k.opened fd = some (f, true))
    {text : List Byte} (has : WinText k.win f text) (eight : text.length = 8) {addr : Nat}
    (sys : WinWilling t k.win addr 4) (agrees : WinAgrees k) :
    ∃ k1 m k2, k.mapIf tab t (Options.new.setLen (.exact 4)) fd = .ok (k1, .ok (some m)) ∧
      WinDocMap.drop t k1 m = .ok k2 ∧ WinGood t k2 ∧ k2.opened fd = some (f, true) ∧ WinText k2.win f text ∧
      WinAgrees k2 := by
  have small : text.length < t.lim := by rw [eight]; exact lim_small
  obtain ⟨s0, e0⟩ := mapIf_some tab g.wf (o := Options.new.setLen (.exact 4)) sys
    ⟨trivial, lim_small, t.lim_pos⟩ file has.size small rfl rfl (fun h => by cases h) rfl
    (by show 0 + 4 ≤ text.length; omega) (by show 0 < 4; decide) (Nat.le_refl 4)
  obtain ⟨s1, r1, e1, g1, kp1, er1, -, tx1, ok1⟩ := winMapped tab g (o := Options.new.setLen (.exact 4))
    ⟨trivial, lim_small, t.lim_pos⟩ file has small
  obtain ⟨st, hop, -⟩ := mapIf_steady tab file rfl rfl (fun h => by cases h) e0
  rw [e0] at e1
  cases e1
  obtain ⟨-, hl, -, hv⟩ := ok1 _ rfl
  obtain ⟨v, -, s, -⟩ := hv (by rw [hl]; show 0 < 4; decide)
  have tx' := tx1 _ rfl
  rw [show fitted (Options.new.setLen (.exact 4)).truncate (Options.new.setLen (.exact 4)).resize text = text from
    fitted_same text] at tx'
  obtain ⟨s2, e2, g2, by2, fi2, -⟩ := s.drop (k := { k with win := s0 }) g1
  exact ⟨_, _, _, e0, e2, g2, file, after_drop (k := { k with win := s0 }) tx' fi2 by2,
    agrees.steady (st.trans (drop_steady e2))⟩

/-- C160: `Options::map` on an open file of 8 bytes. -/
theorem C160_map (tab : SysTable) (g : WinGood t k) {fd f : Nat} (file : k.opened fd = some (f, true))
    {text : List Byte} (has : WinText k.win f text) (eight : text.length = 8) {addr : Nat}
    (sys : WinWilling t k.win addr 4) (agrees : WinAgrees k) : WinDone (WinDocMap.mapping tab t k fd) := by
  obtain ⟨k1, m, k2, e1, e2, g2, file2, has2, ag2⟩ := map_first tab g file has eight sys agrees
  refine .next (a := (k1, .ok m)) (by simp only [WinFs.map, e1, bind, Except.bind]; rfl) ?_
  refine .next (a := ()) rfl ?_
  refine .next (a := _) e2 ?_
  obtain ⟨s3, e3⟩ := mapIf_none (t := t) tab ag2 file2 has2.size (by rw [eight]; exact lim_small)
    (o := Options.new.setLen (.exact 25)) rfl rfl (fun h => by cases h) (by show ¬ 0 + 25 ≤ text.length; omega)
  refine .next (a := (_, .error _)) (by simp only [WinFs.map, e3, bind, Except.bind]; rfl) ?_
  exact .next (a := ()) rfl ⟨_, rfl⟩

example : WinDone (WinDocMap.mapping docTab ⟨.w64, true⟩ (winKindDir (List.replicate 8 0)) 2) :=
  C160_map docTab (winKindDir_good _) (f := 0) rfl (text := List.replicate 8 0) ⟨rfl, fun _ _ => rfl⟩ rfl
    ((winKindDir_willing _).less (by decide)) (winKindDir_agrees _)

example : winEnded (WinDocMap.mapping docTab ⟨.w64, true⟩ (winKindDir (List.replicate 8 0)) 2) = true := by
  decide +kernel

/-- C160: `Options::map_if` on an open file of 8 bytes. -/
theorem C160_map_if (tab : SysTable) (g : WinGood t k) {fd f : Nat} (file : k.opened fd = some (f, true))
    {text : List Byte} (has : WinText k.win f text) (eight : text.length = 8) {addr : Nat}
    (sys : WinWilling t k.win addr 4) (agrees : WinAgrees k) : WinDone (WinDocMap.mappingIf tab t k fd) := by
  obtain ⟨k1, m, k2, e1, e2, g2, file2, has2, ag2⟩ := map_first tab g file has eight sys agrees
  refine .next e1 ?_
  refine .next (a := ()) rfl ?_
  refine .next (a := _) e2 ?_
  obtain ⟨s3, e3⟩ := mapIf_none (t := t) tab ag2 file2 has2.size (by rw [eight]; exact lim_small)
    (o := Options.new.setLen (.exact 25)) rfl rfl (fun h => by cases h) (by show ¬ 0 + 25 ≤ text.length; omega)
  refine .next e3 ?_
  exact .next (a := ()) rfl (.next (a := ()) rfl ⟨_, rfl⟩)

example : WinDone (WinDocMap.mappingIf docTab ⟨.w64, true⟩ (winKindDir (List.replicate 8 0)) 2) :=
  C160_map_if docTab (winKindDir_good _) (f := 0) rfl (text := List.replicate 8 0) ⟨rfl, fun _ _ => rfl⟩ rfl
    ((winKindDir_willing _).less (by decide)) (winKindDir_agrees _)

example : winEnded (WinDocMap.mappingIf docTab ⟨.w64, true⟩ (winKindDir (List.replicate 8 0)) 2) = true := by
  decide +kernel

/-- C160: `Options::write`: a map of a file opened only for reading can not be made mutable; if the file
was opened for writing as well, it can, where Windows grants it. -/
theorem C160_write (tab : SysTable) (g : WinGood t k) {text : List Byte} (has : WinFileHas k path text)
    (small : text.length < t.lim) (some : text ≠ []) (agrees : WinAgrees k) :
    WinFine (WinDocMap.write tab t k path) := by
  have hpos : 0 < text.length := List.length_pos_iff.mpr some
  obtain ⟨k1, r1, e1, g1, kp1, er1, ok1⟩ := winOpened tab g (o := Options.new)
    ⟨trivial, trivial, t.lim_pos⟩ (.inl has) small rfl
  have in1 : InRange (newLen Options.new.truncate Options.new.resize text.length) Options.new.offset Options.new.len :=
    Nat.zero_le _
  refine .ask e1 (fun e h => (er1 e h).resolve_right (fun h' => h' in1)) ?_
  rintro ⟨m, fd⟩ h
  subst h
  have st1 := open_steady tab g.wf rfl rfl (fun h => by cases h) e1
  obtain ⟨f, nm, hfd, tx, -, hl, -, hv⟩ := ok1 m fd rfl
  obtain ⟨v, hvf, s, acc, -⟩ := hv (by rw [hl]; exact hpos)
  obtain ⟨s2, r2, e2, still, or2, er2, -, key⟩ := s.protects g1 acc
  refine .next e2 ?_
  cases r2 with
  | ok m' => rcases (key.mp ⟨m', rfl⟩).2 with h | h <;> cases h
  | error x =>
    obtain ⟨e, b⟩ := x
    have := er2 e b rfl
    subst this
    refine .next (a := ()) rfl ?_
    have g2 := g1.still still
    obtain ⟨s3, e3, g3, by3, fi3, -⟩ := (s.still still).drop (k := { k1 with win := s2 }) g2
    refine .next (a := _) e3 ?_
    have st3 := drop_steady e3
    have tx3 : WinText s3 f text := by
      rw [show fitted Options.new.truncate Options.new.resize text = text from fitted_same text] at tx
      exact after_drop (k := k1) tx (fi3.trans still.files) (by3.trans still.bytes)
    have ag3 := agrees.steady (st1.trans ((show WinSteady k1 { k1 with win := s2 } from ⟨or2, rfl, fun _ _ h => h⟩).trans st3))
    obtain ⟨k4, r4, e4, g4, kp4, er4, ok4⟩ := winOpened tab g3 (o := Options.new.write)
      ⟨trivial, trivial, t.lim_pos⟩ (.inl ⟨f, nm, tx3⟩) small rfl
    refine .ask e4 (fun e h => (er4 e h).resolve_right (fun h' => h' in1)) ?_
    rintro ⟨m4, fd4⟩ h
    subst h
    have st4 := open_steady tab g3.wf rfl rfl (fun _ => rfl) e4
    obtain ⟨f4, -, -, -, -, hl4, -, hv4⟩ := ok4 m4 fd4 rfl
    obtain ⟨v4, -, s4, acc4, -⟩ := hv4 (by rw [hl4]; exact hpos)
    obtain ⟨s5, r5, e5, -, -, -, -, key5⟩ := s4.protects g4 acc4
    refine .next e5 ?_
    obtain ⟨m5, rfl⟩ := key5.mpr ⟨(ag3.steady st4).ok _, .inl rfl⟩
    exact .next (a := ()) rfl (.ok _)

example : WinFine (WinDocMap.write docTab ⟨.w64, true⟩ (winKindDir DocMap.about) "data") :=
  C160_write docTab (winKindDir_good _) (winKindDir_has _) (by decide) (by decide) (winKindDir_agrees _)

example : winEnded (WinDocMap.write docTab ⟨.w64, true⟩ (winKindDir DocMap.about) "data") = true := by
  decide +kernel

/-- C160: `Options::copy`: two copy-on-write maps of the same file do not show each other's changes. -/
theorem C160_copy (tab : SysTable) (g : WinGood t k) {text : List Byte} (has : WinFileHas k path text)
    (small : text.length < t.lim) (some : text ≠ []) : WinFine (WinDocMap.copy tab t k path) := by
  have hpos : 0 < text.length := List.length_pos_iff.mpr some
  have in1 : InRange (newLen Options.newMut.copy.truncate Options.newMut.copy.resize text.length)
    Options.newMut.copy.offset Options.newMut.copy.len := Nat.zero_le _
  have same : fitted Options.newMut.copy.truncate Options.newMut.copy.resize text = text := fitted_same text
  obtain ⟨k1, r1, e1, g1, kp1, er1, ok1⟩ := winOpened tab g (o := Options.newMut.copy)
    ⟨trivial, trivial, t.lim_pos⟩ (.inl has) small rfl
  refine .ask e1 (fun e h => (er1 e h).resolve_right (fun h' => h' in1)) ?_
  rintro ⟨m1, fd1⟩ h
  obtain ⟨f, nm, -, tx, -, hl1, -, hv1⟩ := ok1 m1 fd1 h
  rw [same] at tx
  obtain ⟨v1, hf1, s1, acc1, -⟩ := hv1 (by rw [hl1]; exact hpos)
  obtain ⟨k2, r2, e2, g2, kp2, er2, ok2⟩ := winOpened tab g1 (o := Options.newMut.copy)
    ⟨trivial, trivial, t.lim_pos⟩ (.inl ⟨f, nm, tx⟩) small rfl
  refine .ask e2 (fun e h => (er2 e h).resolve_right (fun h' => h' in1)) ?_
  rintro ⟨m2, fd2⟩ h
  obtain ⟨f2, nm2, -, tx2, -, hl2, -, hv2⟩ := ok2 m2 fd2 h
  rw [same] at tx2
  obtain ⟨v2, hf2, s2, acc2, id2⟩ := hv2 (by rw [hl2]; exact hpos)
  have hl1 : m1.len = text.length := hl1
  have hl2 : m2.len = text.length := hl2
  have id1 := (g1.wf.win.views v1 s1.mem).2
  have ff : f2 = f := by
    subst h
    have := (open_steady tab g1.wf rfl rfl (fun h => by cases h) e2).names _ _ nm
    rw [nm2] at this
    injection this
  subst ff
  have s1' : WinSeen k2.win m1 v1 0 false :=
    ⟨s1.pos, kp2.views _ s1.mem, by rw [kp2.gran]; exact s1.mv, s1.off, s1.read, (fun h => by cases h),
      by rw [kp2.own _ id1]; exact s1.own⟩
  have l1 := s1'.load g2 (tx2.bears hf1) (i := 0) (by omega) (by omega)
  have l2 := s2.load g2 (tx2.bears hf2) (i := 0) (by omega) (by show 0 + 0 < _; omega)
  refine .next (a := text.getD 0 0) (by rw [Win.get, if_pos (by omega)]; exact l1) ?_
  obtain ⟨y, e3, fi3, ow3⟩ := s1'.copyStore g2 (tx2.bears hf1) (i := 0) (by omega) (by omega) (acc1.copy.mpr rfl)
    (by cases h : v1.access.write with
        | false => rfl
        | true => cases acc1.write.mp h) 88
  refine .next (a := { k2.win with bytes := y }) (by rw [Win.set, if_pos (by omega)]; exact e3) ?_
  have s2' : WinSeen { k2.win with bytes := y } m2 v2 0 false :=
    ⟨s2.pos, s2.mem, s2.mv, s2.off, s2.read, (fun h => by cases h),
      by show ∀ a, y.own v2.sec.id a = none; rw [ow3 _ (by omega)]; exact s2.own⟩
  have tx3 : WinText { k2.win with bytes := y } f2 text := ⟨tx2.size, fun i hi => by
    show y.file f2 i = _; rw [fi3]; exact tx2.data i hi⟩
  have l3 := s2'.load (k := { k2 with win := { k2.win with bytes := y } }) (g2.bare y) (tx3.bears hf2) (i := 0) (by omega)
    (by omega)
  refine .next (a := text.getD 0 0) (by rw [Win.get, if_pos (by omega)]; exact l3) ?_
  exact .next (a := ()) (by simp only [Doc.assert, decide_true, if_true]) (.ok _)

example : WinFine (WinDocMap.copy docTab ⟨.w64, true⟩ (winDir [] DocMap.about) "data") :=
  C160_copy docTab (winDir_good _ _) (winDir_has _ _) (by decide) (by decide)

example : winEnded (WinDocMap.copy docTab ⟨.w64, true⟩ (winDir [] DocMap.about) "data") = true := by
  decide +kernel

end Vmap
