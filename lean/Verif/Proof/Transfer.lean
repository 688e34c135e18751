import Verif.Model.Transfer
import Verif.Spec.Transfer
import Verif.Proof.Wiring
import Verif.Props.Axi

namespace Verif.Wiring

open DefineStream (Str Stream transaction)
open Axi (BBeat RBeat)

theorem sigName_inj {pfx : Option Str} {a b : Str} (h : sigName pfx a = sigName pfx b) : a = b := by
  unfold sigName at h
  split at h
  · simpa using h
  · exact h

/-- The handles of a bus on the design. -/
def Handles (d : Design) (pfx : Option Str) (hs : List (Str × Str × Nat)) : Prop := ∀ x ∈ hs, x.2.1 = sigName pfx x.1 ∧ d x.2.1 = some x.2.2

theorem IsBus.toHandles {d : Design} {pfx : Option Str} {all : List Str} {b : Bus} (h : IsBus d pfx all b) : Handles d pfx b.handles := by
  intro x hx
  rw [h.eq, List.mem_filterMap] at hx
  obtain ⟨s, _, hs⟩ := hx
  cases hd : d (sigName pfx s) with
  | none => rw [hd] at hs; cases hs
  | some k => rw [hd] at hs; cases hs; exact ⟨rfl, hd⟩

theorem IsBus.mem_handles {d : Design} {pfx : Option Str} {all : List Str} {b : Bus} (h : IsBus d pfx all b) {a : Str} (ha : a ∈ all) :
    a ∈ b.handles.map Prod.fst ↔ d (sigName pfx a) ≠ none := by
  rw [h.eq, List.mem_map]
  constructor
  · rintro ⟨x, hx, rfl⟩
    rw [List.mem_filterMap] at hx
    obtain ⟨s, _, hs⟩ := hx
    cases hd : d (sigName pfx s) with
    | none => rw [hd] at hs; cases hs
    | some k => rw [hd] at hs; cases hs; simp [hd]
  · intro hd
    cases hk : d (sigName pfx a) with
    | none => exact absurd hk hd
    | some k => exact ⟨(a, sigName pfx a, k), List.mem_filterMap.2 ⟨a, ha, by rw [hk]; rfl⟩, rfl⟩

theorem driveAll_ok {d : Design} {pfx : Option Str} {t : Trans} : ∀ {hs : List (Str × Str × Nat)} {w w' : Wires}, Handles d pfx hs →
    driveAll hs t w = .ok w' →
    (∀ x ∈ hs, ∀ v, t.lookup x.1 = some v → Carries x.2.2 v ∧ w' x.2.1 = v % (2 ^ x.2.2 : Nat)) ∧
    (∀ m, (∀ x ∈ hs, x.2.1 ≠ m) → w' m = w m)
  | [], w, w', _, h => by
    cases h
    exact ⟨fun x hx => (by cases hx), fun _ _ => rfl⟩
  | (a, n, k) :: hs, w, w', hh, h => by
    have hh' : Handles d pfx hs := fun x hx => hh x (List.mem_cons_of_mem _ hx)
    rw [driveAll] at h
    cases hl : t.lookup a with
    | none =>
      rw [hl] at h
      obtain ⟨h1, h2⟩ := driveAll_ok hh' h
      refine ⟨fun x hx v hv => ?_, fun m hm => h2 m fun x hx => hm x (List.mem_cons_of_mem _ hx)⟩
      rcases List.mem_cons.1 hx with rfl | hx
      · rw [hl] at hv; cases hv
      · exact h1 x hx v hv
    | some u =>
      rw [hl] at h
      simp only at h
      split at h
      · rename_i hf
        obtain ⟨h1, h2⟩ := driveAll_ok hh' h
        refine ⟨fun x hx v hv => ?_, fun m hm => ?_⟩
        · rcases List.mem_cons.1 hx with rfl | hx
          · simp only at hv ⊢
            rw [hl] at hv; cases hv
            refine ⟨hf, ?_⟩
            by_cases he : ∃ y ∈ hs, y.2.1 = n
            · obtain ⟨y, hy, hyn⟩ := he
              obtain ⟨e1, e2⟩ := hh _ hx
              obtain ⟨e3, e4⟩ := hh' y hy
              simp only at e1 e2
              have ea : y.1 = a := sigName_inj (pfx := pfx) (by rw [← e3, hyn, e1])
              have ek : y.2.2 = k := by rw [hyn, e2] at e4; injection e4 with e4; exact e4.symm
              have := (h1 y hy u (by rw [ea]; exact hl)).2
              rwa [hyn, ek] at this
            · rw [h2 n fun y hy e => he ⟨y, hy, e⟩, if_pos rfl]
          · exact h1 x hx v hv
        · rw [h2 m fun x hx => hm x (List.mem_cons_of_mem _ hx), if_neg]
          exact fun e => hm _ (List.mem_cons_self) e.symm
      · cases h

theorem driveAll_error {t : Trans} : ∀ {hs : List (Str × Str × Nat)} {w : Wires} {e : PyErr},
    driveAll hs t w = .error e → e = .overflowError ∧ ∃ x ∈ hs, ∃ v, t.lookup x.1 = some v ∧ ¬ Carries x.2.2 v
  | [], _, _, h => by cases h
  | (a, n, k) :: hs, w, e, h => by
    rw [driveAll] at h
    cases hl : t.lookup a with
    | none =>
      rw [hl] at h
      obtain ⟨h1, x, h2, h3⟩ := driveAll_error h
      exact ⟨h1, x, List.mem_cons_of_mem _ h2, h3⟩
    | some u =>
      rw [hl] at h
      simp only at h
      split at h
      · obtain ⟨h1, x, h2, h3⟩ := driveAll_error h
        exact ⟨h1, x, List.mem_cons_of_mem _ h2, h3⟩
      · rename_i hf
        cases h
        exact ⟨rfl, _, List.mem_cons_self, u, hl, hf⟩

theorem lookup_isSome {t : Trans} {a : Str} : (t.lookup a).isSome = true ↔ a ∈ t.map Prod.fst := by
  induction t with
  | nil => simp
  | cons x t ih =>
    obtain ⟨k, v⟩ := x
    rw [List.lookup]
    by_cases h : a = k
    · subst h; simp
    · have : (a == k) = false := by simpa using h
      rw [this]
      simp only [ih, List.map_cons, List.mem_cons, h, false_or]

theorem setAttr_keys (a : Str) (v : Int) (t : Trans) : (setAttr a v t).map Prod.fst = t.map Prod.fst := by
  unfold setAttr
  rw [List.map_map]
  apply List.map_congr_left
  intro x _
  simp only [Function.comp]
  split <;> rfl

theorem setAttr_of_not_mem {a : Str} {v : Int} {t : Trans} (h : a ∉ t.map Prod.fst) : setAttr a v t = t := by
  unfold setAttr
  conv => rhs; rw [← List.map_id t]
  apply List.map_congr_left
  intro x hx
  rw [if_neg (fun e => h (List.mem_map.2 ⟨x, hx, e⟩))]
  rfl

theorem sampleAll_eq {d : Design} {pfx : Option Str} (w : Wires) : ∀ {hs : List (Str × Str × Nat)} (t : Trans), Handles d pfx hs →
    sampleAll hs w t = t.map fun x => (x.1, if x.1 ∈ hs.map Prod.fst then w (sigName pfx x.1) else x.2)
  | [], t, _ => by simp [sampleAll]
  | (a, n, k) :: hs, t, hh => by
    have hn : n = sigName pfx a := (hh _ List.mem_cons_self).1
    have e : (if (t.lookup a).isSome then setAttr a (w n) t else t) = setAttr a (w n) t := by
      split
      · rfl
      · rename_i h
        rw [setAttr_of_not_mem (fun hm => h (lookup_isSome.2 hm))]
    rw [sampleAll, e, sampleAll_eq w _ fun x hx => hh x (List.mem_cons_of_mem _ hx)]
    unfold setAttr
    rw [List.map_map]
    apply List.map_congr_left
    intro x _
    simp only [Function.comp, List.map_cons, List.mem_cons]
    by_cases hx : x.1 = a
    · subst hx
      simp [hn]
    · rw [if_neg hx]
      simp only [hx, false_or]

theorem transaction_ok {fields : List Str} {kwargs : Trans} (h : ∀ kv ∈ kwargs, kv.1 ∈ fields) :
    transaction fields kwargs = .ok (fields.map fun f => (f, (kwargs.lookup f).getD 0)) := by
  unfold transaction
  simp only
  rw [if_pos (List.all_eq_true.2 fun kv hkv => by simpa using h kv hkv)]

theorem lookup_map (fields : List Str) (g : Str → Int) (a : Str) :
    (fields.map fun f => (f, g f)).lookup a = if a ∈ fields then some (g a) else none := by
  induction fields with
  | nil => rfl
  | cons f l ih =>
    rw [List.map_cons, List.lookup]
    by_cases h : a = f
    · subst h; simp
    · have : (a == f) = false := by simpa using h
      rw [this]
      simp [ih, h]

/-- A transfer over a channel whose fields are signals of its bus. -/
theorem transfer_spec {st : Stream} (hf : ∀ f ∈ st.fields, f ∈ st.signals ++ st.optional) (d : Design) (pfx : Option Str)
    (hex : ∀ s ∈ st.signals, d (sigName pfx s) ≠ none) (w : Wires) (kwargs : Trans) (hk : ∀ kv ∈ kwargs, kv.1 ∈ st.fields) :
    match transfer st d pfx w kwargs with
    | .ok t => t = (st.fields.map fun f => (f, seen (d (sigName pfx f)) ((kwargs.lookup f).getD 0))) ∧
        ∀ f ∈ st.fields, ∀ k, d (sigName pfx f) = some k → Carries k ((kwargs.lookup f).getD 0)
    | .error e => e = .overflowError ∧ ∃ f ∈ st.fields, ∃ k, d (sigName pfx f) = some k ∧ ¬ Carries k ((kwargs.lookup f).getD 0) := by
  unfold transfer
  cases hc : connect st.signals st.optional d pfx with
  | error e =>
    obtain ⟨_, s, hs, hd⟩ := connect_error hc
    exact absurd hd (hex s hs)
  | ok b =>
    have hb := (connect_ok hc).2
    rw [transaction_ok hk, transaction_ok (fun kv h => by cases h)]
    simp only
    cases hdr : driveAll b.handles (st.fields.map fun f => (f, (kwargs.lookup f).getD 0)) w with
    | error e =>
      obtain ⟨h1, x, h2, v, h3, h4⟩ := driveAll_error hdr
      refine ⟨h1, x.1, ?_⟩
      rw [lookup_map] at h3
      split at h3
      · rename_i hm
        injection h3 with h3
        obtain ⟨e1, e2⟩ := hb.toHandles x h2
        exact ⟨hm, x.2.2, by rw [← e1]; exact e2, by rw [h3]; exact h4⟩
      · cases h3
    | ok w' =>
      obtain ⟨h1, -⟩ := driveAll_ok hb.toHandles hdr
      have key : ∀ f ∈ st.fields, ∀ k, d (sigName pfx f) = some k →
          Carries k ((kwargs.lookup f).getD 0) ∧ w' (sigName pfx f) = (kwargs.lookup f).getD 0 % (2 ^ k : Nat) := by
        intro f hff k hk
        have hm : (f, sigName pfx f, k) ∈ b.handles := by
          rw [hb.eq]
          exact List.mem_filterMap.2 ⟨f, hf f hff, by rw [hk]; rfl⟩
        exact h1 _ hm _ (by rw [lookup_map, if_pos hff])
      refine ⟨?_, fun f hff k hk => (key f hff k hk).1⟩
      rw [sampleAll_eq w' _ hb.toHandles, List.map_map]
      apply List.map_congr_left
      intro f hff
      simp only [Function.comp, hb.mem_handles (hf f hff)]
      cases hd : d (sigName pfx f) with
      | none => simp [seen]
      | some k => simp [seen, (key f hff k hd).2]

theorem respOf_respVal (r : Resp) : respOf (respVal r) = .ok r := by cases r <;> rfl

theorem respVal_range (r : Resp) : 0 ≤ respVal r ∧ respVal r < 4 := by cases r <;> decide

theorem arriveAll_ok {α β : Type} {f : α → Py β} {g : α → β} {l : List α} (h : ∀ a ∈ l, f a = .ok (g a)) : arriveAll f l = .ok (l.map g) := by
  induction l with
  | nil => rfl
  | cons a l ih =>
    rw [arriveAll, h a List.mem_cons_self, ih fun b hb => h b (List.mem_cons_of_mem _ hb)]
    rfl

theorem carries_of {k : Nat} {v : Int} (h : 0 ≤ v ∧ v < (2 ^ k : Nat)) : Carries k v := ⟨by
  have : (0 : Int) ≤ (2 ^ (k - 1) : Nat) := Int.natCast_nonneg _
  omega, h.2⟩

theorem seen_of {w : Option Nat} {v : Int} (h : Unsigned w v) : seen w v = if w.isSome then v else 0 := by
  cases w with
  | none => rfl
  | some k =>
    obtain ⟨h0, h1⟩ := h k rfl
    simp only [seen, Option.isSome_some, if_true]
    exact Int.emod_eq_of_lt h0 h1

theorem lookup_toList (l : List (String × Int)) (a : String) : (l.map fun x => (x.1.toList, x.2)).lookup a.toList = l.lookup a := by
  induction l with
  | nil => rfl
  | cons x l ih =>
    rw [List.map_cons, List.lookup, List.lookup, ih]
    by_cases h : a = x.1
    · subst h; simp
    · have h1 : (a == x.1) = false := by simpa using h
      have h2 : (a.toList == x.1.toList) = false := by simpa using fun e => h (String.toList_inj.1 e)
      rw [h1, h2]

/-- What the calls of `define_stream` for the channels make, as far as transfers go. -/
def IsChan (c : Chan) (fields : List String) : Prop :=
  ∃ st, c.stream = .ok st ∧ st.fields = fields.map String.toList ∧ st.signals = c.signals.map String.toList ∧
    st.optional = c.optional.map String.toList ∧ ∀ f ∈ fields, f.toList ∈ (c.signals ++ c.optional).map String.toList

def chanOk (c : Chan) (fields : List String) : Bool :=
  match c.stream with
  | .error _ => false
  | .ok st => decide (st.fields = fields.map String.toList) && decide (st.signals = c.signals.map String.toList) &&
      decide (st.optional = c.optional.map String.toList) && fields.all fun f => decide (f.toList ∈ (c.signals ++ c.optional).map String.toList)

theorem isChan {c : Chan} {fields : List String} (h : chanOk c fields = true) : IsChan c fields := by
  unfold chanOk at h
  split at h
  · cases h
  · rename_i st hst
    simp only [Bool.and_eq_true, decide_eq_true_eq, List.all_eq_true] at h
    exact ⟨st, hst, h.1.1.1, h.1.1.2, h.1.2, h.2⟩

theorem axiB_chan : IsChan axiB ["bid", "bresp", "buser"] := isChan (by decide +kernel)
theorem axiR_chan : IsChan axiR ["rid", "rdata", "rlast", "rresp", "ruser"] := isChan (by decide +kernel)
theorem liteB_chan : IsChan liteB ["bresp"] := isChan (by decide +kernel)
theorem liteR_chan : IsChan liteR ["rdata", "rresp"] := isChan (by decide +kernel)

theorem chan_transfer {c : Chan} {fields : List String} (hc : IsChan c fields) {d : Design} {pfx : Option Str}
    (hex : ∀ s ∈ c.signals, d (fullName pfx s) ≠ none) (w : Wires) (kwargs : List (String × Int)) (hk : ∀ kv ∈ kwargs, kv.1 ∈ fields)
    (hu : ∀ f ∈ fields, Unsigned (d (fullName pfx f)) ((kwargs.lookup f).getD 0)) :
    c.transfer d pfx w kwargs =
      .ok (fields.map fun f => (f.toList, if (d (fullName pfx f)).isSome then (kwargs.lookup f).getD 0 else 0)) := by
  obtain ⟨st, h1, h2, h3, h4, h5⟩ := hc
  unfold Chan.transfer
  rw [h1]
  simp only
  have key := transfer_spec (st := st) (by
      intro f hf
      rw [h2, List.mem_map] at hf
      obtain ⟨g, hg, rfl⟩ := hf
      rw [h3, h4, ← List.map_append]
      exact h5 g hg) d pfx (by
      intro s hs
      rw [h3, List.mem_map] at hs
      obtain ⟨g, hg, rfl⟩ := hs
      rw [← fullName_eq]
      exact hex g hg) w (kwargs.map fun x => (x.1.toList, x.2)) (by
      intro kv hkv
      rw [List.mem_map] at hkv
      obtain ⟨g, hg, rfl⟩ := hkv
      rw [h2]
      exact List.mem_map.2 ⟨g.1, hk g hg, rfl⟩)
  cases ht : transfer st d pfx w (kwargs.map fun x => (x.1.toList, x.2)) with
  | error e =>
    rw [ht] at key
    obtain ⟨-, f, hf, k, hd, hn⟩ := key
    rw [h2, List.mem_map] at hf
    obtain ⟨g, hg, rfl⟩ := hf
    rw [lookup_toList] at hn
    exact absurd (carries_of (hu g hg k (by rw [fullName_eq]; exact hd))) hn
  | ok t =>
    rw [ht] at key
    rw [key.1, h2, List.map_map]
    congr 1
    apply List.map_congr_left
    intro f hf
    simp only [Function.comp, lookup_toList]
    rw [← fullName_eq, seen_of (hu f hf)]

/-! ### The responses of AXI and AXI-lite -/

theorem respSeen (p : Bool) (r : Resp) : respOf (if p then respVal r else 0) = .ok (if p then r else .okay) := by
  cases p
  · rfl
  · exact respOf_respVal r

/-- The signals of the response channel, as far as the constructors check them. -/
structure BOK (d : Design) (pfx : Option Str) : Prop where
  exist : ∀ s ∈ ["bvalid", "bready"], d (fullName pfx s) ≠ none
  resp : ∀ m, d (fullName pfx "bresp") = some m → m = 2

structure ROK (d : Design) (pfx : Option Str) : Prop where
  exist : ∀ s ∈ ["rdata", "rvalid", "rready"], d (fullName pfx s) ≠ none
  resp : ∀ m, d (fullName pfx "rresp") = some m → m = 2

theorem unsignedResp {o : Option Nat} (h : ∀ m, o = some m → m = 2) (r : Resp) : Unsigned o (respVal r) := by
  intro k hk
  cases h k hk
  exact respVal_range r

theorem unsignedZero (o : Option Nat) : Unsigned o 0 := fun k _ => ⟨Int.le_refl _, Int.ofNat_lt.2 (Nat.two_pow_pos k)⟩

theorem arriveB_eq {d : Design} {pfx : Option Str} (h : BOK d pfx) (hid : d (fullName pfx "bid") ≠ none) (w : Wires) (b : BBeat)
    (h1 : Unsigned (d (fullName pfx "bid")) b.id) (h2 : Unsigned (d (fullName pfx "buser")) b.user) :
    arriveB d pfx w b = .ok { id := b.id, resp := if (d (fullName pfx "bresp")).isSome then b.resp else .okay
                              user := if (d (fullName pfx "buser")).isSome then b.user else 0 } := by
  have key := chan_transfer axiB_chan (d := d) (pfx := pfx) (by
      intro s hs
      rcases List.mem_cons.1 hs with rfl | hs
      · exact hid
      · exact h.exist s hs) w [("bid", (b.id : Int)), ("bresp", respVal b.resp), ("buser", b.user)] (by
      intro kv hkv
      simp only [List.mem_cons, List.not_mem_nil, or_false] at hkv
      rcases hkv with rfl | rfl | rfl <;> simp) (by
      intro f hf
      simp only [List.mem_cons, List.not_mem_nil, or_false] at hf
      rcases hf with rfl | rfl | rfl
      · exact h1
      · exact unsignedResp h.resp _
      · exact h2)
  unfold arriveB
  rw [key]
  have e1 := respSeen (d (fullName pfx "bresp")).isSome b.resp
  have hs : (d (fullName pfx "bid")).isSome = true := Option.isSome_iff_ne_none.2 hid
  have l1 : ∀ x y z : Int, attrOf [("bid".toList, x), ("bresp".toList, y), ("buser".toList, z)] "bresp" = y := fun _ _ _ => rfl
  have l2 : ∀ x y z : Int, attrOf [("bid".toList, x), ("bresp".toList, y), ("buser".toList, z)] "bid" = x := fun _ _ _ => rfl
  have l3 : ∀ x y z : Int, attrOf [("bid".toList, x), ("bresp".toList, y), ("buser".toList, z)] "buser" = z := fun _ _ _ => rfl
  simp only [List.map_cons, List.map_nil, l1, l2, l3]
  rw [show ([("bid", (b.id : Int)), ("bresp", respVal b.resp), ("buser", b.user)].lookup "bresp").getD 0 = respVal b.resp from rfl,
    show ([("bid", (b.id : Int)), ("bresp", respVal b.resp), ("buser", b.user)].lookup "bid").getD 0 = (b.id : Int) from rfl,
    show ([("bid", (b.id : Int)), ("bresp", respVal b.resp), ("buser", b.user)].lookup "buser").getD 0 = b.user from rfl, e1, hs]
  simp only [if_true, Int.toNat_natCast]

theorem arriveR_eq {d : Design} {pfx : Option Str} (h : ROK d pfx) (hid : d (fullName pfx "rid") ≠ none) (hlast : d (fullName pfx "rlast") = some 1)
    (w : Wires) (b : RBeat) (h1 : Unsigned (d (fullName pfx "rid")) b.id) (h2 : Unsigned (d (fullName pfx "ruser")) b.user)
    (h3 : Unsigned (d (fullName pfx "rdata")) b.data) :
    arriveR d pfx w b = .ok { id := b.id, data := b.data, resp := if (d (fullName pfx "rresp")).isSome then b.resp else .okay, last := b.last
                              user := if (d (fullName pfx "ruser")).isSome then b.user else 0 } := by
  have key := chan_transfer axiR_chan (d := d) (pfx := pfx) (by
      intro s hs
      change s ∈ ["rid", "rdata", "rlast", "rvalid", "rready"] at hs
      simp only [List.mem_cons, List.not_mem_nil, or_false] at hs
      rcases hs with rfl | rfl | rfl | rfl | rfl
      · exact hid
      · exact h.exist _ (by simp)
      · rw [hlast]; exact fun e => by cases e
      · exact h.exist _ (by simp)
      · exact h.exist _ (by simp)) w
      [("rid", (b.id : Int)), ("rdata", (b.data : Int)), ("rresp", respVal b.resp), ("rlast", if b.last then 1 else 0), ("ruser", b.user)] (by
      intro kv hkv
      simp only [List.mem_cons, List.not_mem_nil, or_false] at hkv
      rcases hkv with rfl | rfl | rfl | rfl | rfl <;> simp) (by
      intro f hf
      simp only [List.mem_cons, List.not_mem_nil, or_false] at hf
      rcases hf with rfl | rfl | rfl | rfl | rfl
      · exact h1
      · exact h3
      · rw [hlast]
        intro k hk
        cases hk
        show 0 ≤ (if b.last then (1 : Int) else 0) ∧ (if b.last then (1 : Int) else 0) < 2
        cases b.last <;> decide
      · exact unsignedResp h.resp _
      · exact h2)
  unfold arriveR
  rw [key]
  have e1 := respSeen (d (fullName pfx "rresp")).isSome b.resp
  have hs : (d (fullName pfx "rid")).isSome = true := Option.isSome_iff_ne_none.2 hid
  have hs2 : (d (fullName pfx "rdata")).isSome = true := Option.isSome_iff_ne_none.2 (h.exist _ (by simp))
  have l1 : ∀ x y z u v : Int, attrOf [("rid".toList, x), ("rdata".toList, y), ("rlast".toList, z), ("rresp".toList, u), ("ruser".toList, v)] "rid" = x :=
    fun _ _ _ _ _ => rfl
  have l2 : ∀ x y z u v : Int, attrOf [("rid".toList, x), ("rdata".toList, y), ("rlast".toList, z), ("rresp".toList, u), ("ruser".toList, v)] "rdata" = y :=
    fun _ _ _ _ _ => rfl
  have l3 : ∀ x y z u v : Int, attrOf [("rid".toList, x), ("rdata".toList, y), ("rlast".toList, z), ("rresp".toList, u), ("ruser".toList, v)] "rlast" = z :=
    fun _ _ _ _ _ => rfl
  have l4 : ∀ x y z u v : Int, attrOf [("rid".toList, x), ("rdata".toList, y), ("rlast".toList, z), ("rresp".toList, u), ("ruser".toList, v)] "rresp" = u :=
    fun _ _ _ _ _ => rfl
  have l5 : ∀ x y z u v : Int, attrOf [("rid".toList, x), ("rdata".toList, y), ("rlast".toList, z), ("rresp".toList, u), ("ruser".toList, v)] "ruser" = v :=
    fun _ _ _ _ _ => rfl
  have g : ∀ a b' c e f : Int, ([("rid", a), ("rdata", b'), ("rresp", c), ("rlast", e), ("ruser", f)].lookup "rid").getD 0 = a ∧
      ([("rid", a), ("rdata", b'), ("rresp", c), ("rlast", e), ("ruser", f)].lookup "rdata").getD 0 = b' ∧
      ([("rid", a), ("rdata", b'), ("rresp", c), ("rlast", e), ("ruser", f)].lookup "rresp").getD 0 = c ∧
      ([("rid", a), ("rdata", b'), ("rresp", c), ("rlast", e), ("ruser", f)].lookup "rlast").getD 0 = e ∧
      ([("rid", a), ("rdata", b'), ("rresp", c), ("rlast", e), ("ruser", f)].lookup "ruser").getD 0 = f := fun _ _ _ _ _ => ⟨rfl, rfl, rfl, rfl, rfl⟩
  simp only [List.map_cons, List.map_nil, l1, l2, l3, l4, l5, (g _ _ _ _ _).1, (g _ _ _ _ _).2.1, (g _ _ _ _ _).2.2.1, (g _ _ _ _ _).2.2.2.1,
    (g _ _ _ _ _).2.2.2.2, e1, hs, hs2, hlast, Option.isSome_some, if_true, Int.toNat_natCast]
  cases b.last <;> rfl

theorem arriveLiteB_eq {d : Design} {pfx : Option Str} (h : BOK d pfx) (w : Wires) (r : Resp) :
    arriveLiteB d pfx w r = .ok (if (d (fullName pfx "bresp")).isSome then r else .okay) := by
  have key := chan_transfer liteB_chan (d := d) (pfx := pfx) h.exist w [("bresp", respVal r)] (by
      intro kv hkv
      simp only [List.mem_cons, List.not_mem_nil, or_false] at hkv
      rcases hkv with rfl
      simp) (by
      intro f hf
      simp only [List.mem_cons, List.not_mem_nil, or_false] at hf
      rcases hf with rfl
      exact unsignedResp h.resp _)
  unfold arriveLiteB
  rw [key]
  exact respSeen (d (fullName pfx "bresp")).isSome r

theorem arriveLiteR_eq {d : Design} {pfx : Option Str} (h : ROK d pfx) (w : Wires) (b : Nat × Resp)
    (h3 : Unsigned (d (fullName pfx "rdata")) b.1) :
    arriveLiteR d pfx w b = .ok (b.1, if (d (fullName pfx "rresp")).isSome then b.2 else .okay) := by
  have key := chan_transfer liteR_chan (d := d) (pfx := pfx) h.exist w [("rdata", (b.1 : Int)), ("rresp", respVal b.2)] (by
      intro kv hkv
      simp only [List.mem_cons, List.not_mem_nil, or_false] at hkv
      rcases hkv with rfl | rfl <;> simp) (by
      intro f hf
      simp only [List.mem_cons, List.not_mem_nil, or_false] at hf
      rcases hf with rfl | rfl
      · exact h3
      · exact unsignedResp h.resp _)
  unfold arriveLiteR
  rw [key]
  have e1 := respSeen (d (fullName pfx "rresp")).isSome b.2
  have hs2 : (d (fullName pfx "rdata")).isSome = true := Option.isSome_iff_ne_none.2 (h.exist _ (by simp))
  have l1 : ∀ x y : Int, attrOf [("rdata".toList, x), ("rresp".toList, y)] "rdata" = x := fun _ _ => rfl
  have l2 : ∀ x y : Int, attrOf [("rdata".toList, x), ("rresp".toList, y)] "rresp" = y := fun _ _ => rfl
  have g : ∀ a b' : Int, ([("rdata", a), ("rresp", b')].lookup "rdata").getD 0 = a ∧ ([("rdata", a), ("rresp", b')].lookup "rresp").getD 0 = b' :=
    fun _ _ => ⟨rfl, rfl⟩
  simp only [List.map_cons, List.map_nil, l1, l2, (g _ _).1, (g _ _).2, e1, hs2, if_true, Int.toNat_natCast]

/-! ### Results made from responses with fields missing -/

theorem foldResp_masked (p : Bool) (l : List Resp) : foldResp .okay (l.map fun r => if p then r else .okay) = reported p l := by
  cases p
  · rw [Axi.foldResp_okay _ (by intro r hr; rw [List.mem_map] at hr; obtain ⟨_, _, h⟩ := hr; simpa using h.symm)]
    rfl
  · simp only [if_true, List.map_id']
    exact Axi.foldResp_last _ _

/-- What is left of a beat of read data when signals are missing. -/
def maskR (p q : Bool) (b : RBeat) : RBeat := { b with resp := if p then b.resp else .okay, user := if q then b.user else 0 }

/-- What is left of the results. -/
def maskResp (p : Bool) (r : Resp) : Resp := if p then r else .okay

theorem readRespBurst_mask (c : Axi.Cfg) (cmd : Axi.Cmd) (bl : Nat) (p q : Bool) : ∀ (rem : Nat) (rs : List RBeat) (co : Nat) (first : Bool) (data : Bytes)
    (resp : Resp) (user user' : List Int), (q = true → user' = user) →
    match Axi.readRespBurst c cmd bl rem rs co first data resp user with
    | .error e => Axi.readRespBurst c cmd bl rem (rs.map (maskR p q)) co first data (maskResp p resp) user' = .error e
    | .ok (rs₁, co₁, first₁, data₁, resp₁, user₁) => ∃ user₂, (q = true → user₂ = user₁) ∧
        Axi.readRespBurst c cmd bl rem (rs.map (maskR p q)) co first data (maskResp p resp) user' =
          .ok (rs₁.map (maskR p q), co₁, first₁, data₁, maskResp p resp₁, user₂)
  | 0, rs, co, first, data, resp, user, user', hu => by
    simp only [Axi.readRespBurst]
    exact ⟨user', hu, rfl⟩
  | rem + 1, [], co, first, data, resp, user, user', hu => by
    simp only [Axi.readRespBurst, List.map_nil]
  | rem + 1, r :: rs, co, first, data, resp, user, user', hu => by
    simp only [Axi.readRespBurst, List.map_cons]
    by_cases hl : r.last ≠ decide (bl - (rem + 1) = bl - 1)
    · simp only [if_pos hl]
      rw [if_pos (show (maskR p q r).last ≠ _ from hl)]
    · simp only [if_neg hl]
      rw [if_neg (show ¬ (maskR p q r).last ≠ _ from hl)]
      have key := readRespBurst_mask c cmd bl p q rem rs ((co + 2 ^ cmd.size) % c.lanes) false
        (data ++ unpackLanes r.data (if first then cmd.address % c.lanes else co) (co + 2 ^ cmd.size))
        (if r.resp ≠ .okay then r.resp else resp) (user ++ [r.user]) (user' ++ [(maskR p q r).user]) (by
          intro hq
          rw [hu hq]
          simp [maskR, hq])
      have e : maskResp p (if r.resp ≠ .okay then r.resp else resp) =
          if (maskR p q r).resp ≠ .okay then (maskR p q r).resp else maskResp p resp := by
        cases p <;> simp [maskResp, maskR]
      rw [e] at key
      exact key

theorem readRespBursts_mask (c : Axi.Cfg) (cmd : Axi.Cmd) (p q : Bool) : ∀ (bls : List Nat) (rs : List RBeat) (co : Nat) (first : Bool) (data : Bytes)
    (resp : Resp) (user user' : List Int), (q = true → user' = user) →
    match Axi.readRespBursts c cmd bls rs co first data resp user with
    | .error e => Axi.readRespBursts c cmd bls (rs.map (maskR p q)) co first data (maskResp p resp) user' = .error e
    | .ok (data₁, resp₁, user₁, rs₁) => ∃ user₂, (q = true → user₂ = user₁) ∧
        Axi.readRespBursts c cmd bls (rs.map (maskR p q)) co first data (maskResp p resp) user' =
          .ok (data₁, maskResp p resp₁, user₂, rs₁.map (maskR p q))
  | [], rs, co, first, data, resp, user, user', hu => by
    simp only [Axi.readRespBursts]
    exact ⟨user', hu, rfl⟩
  | bl :: bls, rs, co, first, data, resp, user, user', hu => by
    have key := readRespBurst_mask c cmd bl p q bl rs co first data resp user user' hu
    simp only [Axi.readRespBursts]
    cases h : Axi.readRespBurst c cmd bl bl rs co first data resp user with
    | error e =>
      rw [h] at key
      simp only at key ⊢
      rw [key]
    | ok x =>
      obtain ⟨rs₁, co₁, first₁, data₁, resp₁, user₁⟩ := x
      rw [h] at key
      obtain ⟨user₂, hq, he⟩ := key
      simp only
      rw [he]
      exact readRespBursts_mask c cmd p q bls rs₁ co₁ first₁ data₁ resp₁ user₁ user₂ hq

theorem wordReadLoop_mask (c : Word.Cfg) (cmd : Word.Cmd) (p : Bool) : ∀ (rem : Nat) (rs : List (Nat × Resp)) (data : Bytes) (resp : Resp),
    Word.readLoop c cmd rem (rs.map fun b => (b.1, maskResp p b.2)) data (maskResp p resp) =
      (Word.readLoop c cmd rem rs data resp).map fun x => (x.1, maskResp p x.2.1, x.2.2.map fun b => (b.1, maskResp p b.2))
  | 0, rs, data, resp => rfl
  | rem + 1, [], data, resp => rfl
  | rem + 1, r :: rs, data, resp => by
    simp only [Word.readLoop, List.map_cons]
    rw [← wordReadLoop_mask c cmd p rem rs]
    congr 1
    cases p <;> simp [maskResp]

end Verif.Wiring
