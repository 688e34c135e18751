import Verif.Model.Buddy

/-!
# Lemmas about `Buddy`: every state is the image of a normalised binary tree
-/

namespace Verif
namespace Buddy

/-- Proof device: the arena as a binary tree. -/
inductive Tree
  | free
  | used
  | node (l r : Tree)
  deriving DecidableEq

/-- A block: free or not, address, level (size `2^level`). -/
abbrev Blk := Bool × Nat × Nat

namespace Tree

/-- Leaves of a tree occupying `[a, a + 2^n)`. -/
def leaves : Tree → Nat → Nat → List Blk
  | .free, n, a => [(true, a, n)]
  | .used, n, a => [(false, a, n)]
  | .node _ _, 0, _ => []
  | .node l r, n + 1, a => l.leaves n a ++ r.leaves n (a + 2 ^ n)

/-- Nodes only above level 0. -/
def Fits : Tree → Nat → Prop
  | .free, _ => True
  | .used, _ => True
  | .node _ _, 0 => False
  | .node l r, n + 1 => l.Fits n ∧ r.Fits n

/-- No node has two free leaves as children. -/
def Norm : Tree → Prop
  | .free => True
  | .used => True
  | .node l r => l.Norm ∧ r.Norm ∧ ¬ (l = .free ∧ r = .free)

end Tree

open Tree

/-- A path from a hole outwards: direction of the hole (true = right child) and the sibling. -/
abbrev Path := List (Bool × Tree)

def plug : Path → Tree → Tree
  | [], t => t
  | (false, s) :: p, t => plug p (.node t s)
  | (true, s) :: p, t => plug p (.node s t)

/-- Address of the hole at level `b`. -/
def pbase : Path → Nat → Nat
  | [], _ => 0
  | (d, _) :: p, b => pbase p (b + 1) + (if d then 2 ^ b else 0)

/-- The leaves of the siblings along a path. -/
def cleaves : Path → Nat → List Blk
  | [], _ => []
  | (d, s) :: p, b => s.leaves b (pbase p (b + 1) + (if d then 0 else 2 ^ b)) ++ cleaves p (b + 1)

def CFits : Path → Nat → Prop
  | [], _ => True
  | (_, s) :: p, b => s.Fits b ∧ CFits p (b + 1)

/-- Norm of the siblings on a path. -/
def CNorm : Path → Prop
  | [] => True
  | (_, s) :: p => s.Norm ∧ CNorm p

theorem leaves_plug (p : Path) : ∀ (t : Tree) (b : Nat),
    ((plug p t).leaves (b + p.length) 0).Perm (t.leaves b (pbase p b) ++ cleaves p b) := by
  induction p with
  | nil => intro t b; simp [plug, pbase, cleaves]
  | cons hd p ih =>
    intro t b
    obtain ⟨d, s⟩ := hd
    cases d with
    | false =>
      simp only [plug, List.length_cons, pbase, cleaves]
      have := ih (.node t s) (b + 1)
      rw [show b + 1 + p.length = b + (p.length + 1) by omega] at this
      refine this.trans ?_
      simp [leaves]
    | true =>
      simp only [plug, List.length_cons, pbase, cleaves]
      have := ih (.node s t) (b + 1)
      rw [show b + 1 + p.length = b + (p.length + 1) by omega] at this
      refine this.trans ?_
      simp only [leaves, if_true, Nat.add_zero, ← List.append_assoc]
      exact List.Perm.append_right _ List.perm_append_comm

theorem fits_plug (p : Path) : ∀ (t : Tree) (b : Nat),
    (plug p t).Fits (b + p.length) ↔ t.Fits b ∧ CFits p b := by
  induction p with
  | nil => intro t b; simp [plug, CFits]
  | cons hd p ih =>
    intro t b
    obtain ⟨d, s⟩ := hd
    have e : b + (p.length + 1) = b + 1 + p.length := by omega
    cases d with
    | false =>
      simp only [plug, List.length_cons, CFits, e]
      rw [ih]; simp only [Fits]; grind
    | true =>
      simp only [plug, List.length_cons, CFits, e]
      rw [ih]; simp only [Fits]; grind

/-- The head sibling and the plugged tree are not both free. -/
def headOK : Path → Tree → Prop
  | [], _ => True
  | (_, s) :: _, t => ¬ (t = .free ∧ s = .free)

theorem norm_plug (p : Path) : ∀ (t : Tree),
    (plug p t).Norm ↔ t.Norm ∧ CNorm p ∧ headOK p t := by
  induction p with
  | nil => intro t; simp [plug, CNorm, headOK]
  | cons hd p ih =>
    intro t
    obtain ⟨d, s⟩ := hd
    have hok : ∀ l r, headOK p (.node l r) := by
      intro l r; cases p with
      | nil => trivial
      | cons hd' p' => simp [headOK]
    cases d with
    | false => simp only [plug, CNorm, headOK]; rw [ih]; simp only [Norm, hok]; grind
    | true => simp only [plug, CNorm, headOK]; rw [ih]; simp only [Norm, hok]; grind

/-- Every leaf of a tree is the hole of some path. -/
theorem exists_path (t : Tree) : ∀ (n a : Nat) (q : Path) (x : Blk), t.Fits n → pbase q n = a →
    x ∈ t.leaves n a →
    ∃ p, plug p (if x.1 then .free else .used) = plug q t ∧ pbase p x.2.2 = x.2.1 ∧
      x.2.2 + p.length = n + q.length := by
  induction t with
  | free =>
    intro n a q x _ hb hx
    simp only [leaves, List.mem_singleton] at hx
    subst hx; exact ⟨q, by simp, hb, rfl⟩
  | used =>
    intro n a q x _ hb hx
    simp only [leaves, List.mem_singleton] at hx
    subst hx; exact ⟨q, by simp, hb, rfl⟩
  | node l r ihl ihr =>
    intro n a q x hf hb hx
    cases n with
    | zero => simp [Fits] at hf
    | succ n =>
      simp only [leaves, List.mem_append] at hx
      simp only [Fits] at hf
      rcases hx with hx | hx
      · obtain ⟨p, h1, h2, h3⟩ := ihl n a ((false, r) :: q) x hf.1 (by simp [pbase, hb]) hx
        exact ⟨p, by rw [h1]; rfl, h2, by rw [h3, List.length_cons]; omega⟩
      · obtain ⟨p, h1, h2, h3⟩ := ihr n (a + 2 ^ n) ((true, l) :: q) x hf.2 (by simp [pbase, hb]) hx
        exact ⟨p, by rw [h1]; rfl, h2, by rw [h3, List.length_cons]; omega⟩

/-- Leaves are aligned and inside the tree's range. -/
theorem leaf_range (t : Tree) : ∀ (n a : Nat) (x : Blk), t.Fits n → 2 ^ n ∣ a → x ∈ t.leaves n a →
    x.2.2 ≤ n ∧ 2 ^ x.2.2 ∣ x.2.1 ∧ a ≤ x.2.1 ∧ x.2.1 + 2 ^ x.2.2 ≤ a + 2 ^ n := by
  induction t with
  | free =>
    intro n a x _ ha hx
    simp only [leaves, List.mem_singleton] at hx
    subst hx; simp [ha]
  | used =>
    intro n a x _ ha hx
    simp only [leaves, List.mem_singleton] at hx
    subst hx; simp [ha]
  | node l r ihl ihr =>
    intro n a x hf ha hx
    cases n with
    | zero => simp [Fits] at hf
    | succ n =>
      simp only [leaves, List.mem_append] at hx
      simp only [Fits] at hf
      have hd : 2 ^ n ∣ a := Nat.dvd_trans ⟨2, by rw [Nat.pow_succ]⟩ ha
      have hp := Nat.pow_succ (m := n) (n := 2)
      rcases hx with hx | hx
      · have := ihl n a x hf.1 hd hx
        refine ⟨by omega, this.2.1, by omega, by omega⟩
      · have := ihr n (a + 2 ^ n) x hf.2 (Nat.dvd_add hd (Nat.dvd_refl _)) hx
        refine ⟨by omega, this.2.1, by omega, by omega⟩

/-- Two blocks do not share an address. -/
def Disj (x y : Blk) : Prop := x.2.1 + 2 ^ x.2.2 ≤ y.2.1 ∨ y.2.1 + 2 ^ y.2.2 ≤ x.2.1

theorem Disj.symm {x y : Blk} (h : Disj x y) : Disj y x := by unfold Disj at *; omega

theorem leaves_pairwise (t : Tree) : ∀ (n a : Nat), t.Fits n → 2 ^ n ∣ a →
    (t.leaves n a).Pairwise Disj := by
  induction t with
  | free => intro n a _ _; simp [leaves]
  | used => intro n a _ _; simp [leaves]
  | node l r ihl ihr =>
    intro n a hf ha
    cases n with
    | zero => simp [leaves]
    | succ n =>
      simp only [Fits] at hf
      have hd : 2 ^ n ∣ a := Nat.dvd_trans ⟨2, by rw [Nat.pow_succ]⟩ ha
      simp only [leaves, List.pairwise_append]
      refine ⟨ihl n a hf.1 hd, ihr n _ hf.2 (Nat.dvd_add hd (Nat.dvd_refl _)), ?_⟩
      intro x hx y hy
      have h1 := leaf_range l n a x hf.1 hd hx
      have h2 := leaf_range r n _ y hf.2 (Nat.dvd_add hd (Nat.dvd_refl _)) hy
      left; omega

theorem leaves_cover (t : Tree) : ∀ (n a z : Nat), t.Fits n → a ≤ z → z < a + 2 ^ n →
    ∃ x ∈ t.leaves n a, x.2.1 ≤ z ∧ z < x.2.1 + 2 ^ x.2.2 := by
  induction t with
  | free => intro n a z _ h1 h2; exact ⟨(true, a, n), by simp [leaves], h1, h2⟩
  | used => intro n a z _ h1 h2; exact ⟨(false, a, n), by simp [leaves], h1, h2⟩
  | node l r ihl ihr =>
    intro n a z hf h1 h2
    cases n with
    | zero => simp [Fits] at hf
    | succ n =>
      simp only [Fits] at hf
      have hp := Nat.pow_succ (m := n) (n := 2)
      simp only [leaves, List.mem_append]
      by_cases h : z < a + 2 ^ n
      · obtain ⟨x, hx, h3⟩ := ihl n a z hf.1 h1 h
        exact ⟨x, .inl hx, h3⟩
      · obtain ⟨x, hx, h3⟩ := ihr n (a + 2 ^ n) z hf.2 (by omega) (by omega)
        exact ⟨x, .inr hx, h3⟩

/-- A normalised tree with no used leaf is a single free leaf. -/
theorem all_free (t : Tree) : ∀ (n a : Nat), t.Fits n → t.Norm →
    (∀ x ∈ t.leaves n a, x.1 = true) → t = .free := by
  induction t with
  | free => intros; rfl
  | used => intro n a _ _ h; have := h (false, a, n) (by simp [leaves]); simp at this
  | node l r ihl ihr =>
    intro n a hf hn h
    cases n with
    | zero => simp [Fits] at hf
    | succ n =>
      simp only [Fits] at hf
      simp only [Norm] at hn
      simp only [leaves, List.mem_append] at h
      exact absurd ⟨ihl n a hf.1 hn.1 (fun x hx => h x (.inl hx)),
        ihr n _ hf.2 hn.2.1 (fun x hx => h x (.inr hx))⟩ hn.2.2

/-- An aligned range of level `b` disjoint from every used leaf lies in a free leaf of level ≥ `b`. -/
theorem free_leaf_of_room (t : Tree) : ∀ (n a z b : Nat), t.Fits n → t.Norm → 2 ^ n ∣ a → b ≤ n →
    2 ^ b ∣ z → a ≤ z → z + 2 ^ b ≤ a + 2 ^ n →
    (∀ x ∈ t.leaves n a, x.1 = false → Disj (true, z, b) x) →
    ∃ x ∈ t.leaves n a, x.1 = true ∧ b ≤ x.2.2 := by
  induction t with
  | free => intro n a z b _ _ _ hb _ _ _ _; exact ⟨(true, a, n), by simp [leaves], rfl, hb⟩
  | used =>
    intro n a z b _ _ _ hb hz h1 h2 h
    have := h (false, a, n) (by simp [leaves]) rfl
    have hp : 0 < 2 ^ b := Nat.pow_pos (by decide)
    have hpn : 0 < 2 ^ n := Nat.pow_pos (by decide)
    simp only [Disj] at this
    omega
  | node l r ihl ihr =>
    intro n a z b hf hn ha hb hz h1 h2 h
    cases n with
    | zero => simp [Fits] at hf
    | succ n =>
      have hp := Nat.pow_succ (m := n) (n := 2)
      have hd : 2 ^ n ∣ a := Nat.dvd_trans ⟨2, by rw [Nat.pow_succ]⟩ ha
      by_cases hbn : b ≤ n
      · simp only [Fits] at hf
        simp only [Norm] at hn
        simp only [leaves, List.mem_append] at h ⊢
        have hdv : 2 ^ b ∣ a + 2 ^ n :=
          Nat.dvd_add (Nat.dvd_trans (Nat.pow_dvd_pow 2 hbn) hd) (Nat.pow_dvd_pow 2 hbn)
        by_cases hz2 : z < a + 2 ^ n
        · have : z + 2 ^ b ≤ a + 2 ^ n := by
            obtain ⟨u, hu⟩ := hz
            obtain ⟨v, hv⟩ := hdv
            rw [hu, hv] at hz2 ⊢
            have : u < v := Nat.lt_of_mul_lt_mul_left hz2
            calc 2 ^ b * u + 2 ^ b = 2 ^ b * (u + 1) := by rw [Nat.mul_succ]
              _ ≤ 2 ^ b * v := Nat.mul_le_mul_left _ this
          obtain ⟨x, hx, h3⟩ := ihl n a z b hf.1 hn.1 hd hbn hz h1 this (fun x hx => h x (.inl hx))
          exact ⟨x, .inl hx, h3⟩
        · obtain ⟨x, hx, h3⟩ := ihr n (a + 2 ^ n) z b hf.2 hn.2.1
            (Nat.dvd_add hd (Nat.dvd_refl _)) hbn hz (by omega) (by omega)
            (fun x hx => h x (.inr hx))
          exact ⟨x, .inr hx, h3⟩
      · -- the whole node: it contains a used leaf
        exfalso
        have hb' : b = n + 1 := by omega
        subst hb'
        have hza : z = a := by omega
        subst hza
        have : ∀ x ∈ (Tree.node l r).leaves (n + 1) z, x.1 = true := by
          intro x hx
          cases hx1 : x.1 with
          | true => rfl
          | false =>
            have hdj := h x hx hx1
            have hr := leaf_range _ _ _ _ hf ha hx
            have hpx : 0 < 2 ^ x.2.2 := Nat.pow_pos (by decide)
            simp only [Disj] at hdj
            omega
        have := all_free _ _ _ hf hn this
        cases this

theorem pbase_dvd (p : Path) : ∀ b, 2 ^ b ∣ pbase p b := by
  induction p with
  | nil => intro b; simp [pbase]
  | cons hd p ih =>
    intro b
    obtain ⟨d, s⟩ := hd
    simp only [pbase]
    apply Nat.dvd_add (Nat.dvd_trans ⟨2, by rw [Nat.pow_succ]⟩ (ih (b + 1)))
    cases d <;> simp

theorem pbase_bound (p : Path) : ∀ b, pbase p b + 2 ^ b ≤ 2 ^ (b + p.length) := by
  induction p with
  | nil => intro b; simp [pbase]
  | cons hd p ih =>
    intro b
    obtain ⟨d, s⟩ := hd
    have := ih (b + 1)
    have hp := Nat.pow_succ (m := b) (n := 2)
    simp only [pbase, List.length_cons]
    rw [show b + (p.length + 1) = b + 1 + p.length by omega]
    cases d <;> simp <;> omega

/-- Sibling leaves are disjoint from the hole's range. -/
theorem cleaves_disj (p : Path) : ∀ (b : Nat) (x : Blk), CFits p b → x ∈ cleaves p b →
    Disj (true, pbase p b, b) x := by
  induction p with
  | nil => intro b x _ hx; simp [cleaves] at hx
  | cons hd p ih =>
    intro b x hf hx
    obtain ⟨d, s⟩ := hd
    simp only [CFits] at hf
    simp only [cleaves, List.mem_append] at hx
    have hp := Nat.pow_succ (m := b) (n := 2)
    have hdv := pbase_dvd p (b + 1)
    have hd' : 2 ^ b ∣ pbase p (b + 1) := Nat.dvd_trans ⟨2, by rw [Nat.pow_succ]⟩ hdv
    rcases hx with hx | hx
    · have := leaf_range s b _ x hf.1 (by cases d <;> simp <;> first | exact hd' | exact Nat.dvd_add hd' (Nat.dvd_refl _)) hx
      simp only [Disj, pbase]
      cases d <;> simp at * <;> omega
    · have := ih (b + 1) x hf.2 hx
      simp only [Disj, pbase] at *
      cases d <;> simp <;> omega

/-! ## Free lists as functions -/

/-- Free-list contents at level `b` (empty outside the table). -/
def FL (fl : List (List Nat)) (b : Nat) : List Nat := match fl[b]? with
  | some l => l
  | none => []

theorem FL_set (fl : List (List Nat)) (b : Nat) (l : List Nat) (h : b < fl.length) (c : Nat) :
    FL (fl.set b l) c = if c = b then l else FL fl c := by
  unfold FL
  rw [List.getElem?_set]
  by_cases hc : b = c
  · subst hc; simp [h]
  · rw [if_neg hc, if_neg (fun h => hc h.symm)]

theorem FL_push (fl : List (List Nat)) (b x : Nat) (h : b < fl.length) (c : Nat) :
    FL (pushBack fl b x) c = if c = b then FL fl b ++ [x] else FL fl c := by
  unfold FL pushBack
  rw [List.getElem?_modify]
  by_cases hc : b = c
  · subst hc; simp [List.getElem?_eq_getElem h]
  · simp only [hc, if_false]
    rw [if_neg (fun h => hc h.symm)]
    cases fl[c]? <;> rfl

theorem length_push (fl : List (List Nat)) (b x : Nat) : (pushBack fl b x).length = fl.length := by
  simp [pushBack]

theorem popFront_ok (fl : List (List Nat)) (b x : Nat) (r : List Nat) (h : FL fl b = x :: r) :
    popFront fl b = .ok (x, fl.set b r) ∧ b < fl.length := by
  unfold FL at h
  split at h
  · rename_i l hl
    subst h
    refine ⟨by simp [popFront, hl], ?_⟩
    exact (List.getElem?_eq_some_iff.1 hl).1
  · cases h

theorem findBucket_some (fl : List (List Nat)) : ∀ (rem b k : Nat), b + rem = fl.length →
    findBucket fl b rem = some k →
    b ≤ k ∧ k < fl.length ∧ FL fl k ≠ [] ∧ ∀ j, b ≤ j → j < k → FL fl j = [] := by
  intro rem
  induction rem with
  | zero => intro b k _ h; simp [findBucket] at h
  | succ rem ih =>
    intro b k hb h
    simp only [findBucket] at h
    split at h
    · rename_i he
      obtain ⟨h1, h2, h3, h4⟩ := ih (b + 1) k (by omega) h
      refine ⟨by omega, h2, h3, ?_⟩
      intro j hj1 hj2
      by_cases hj : j = b
      · subst hj; simp [FL, he]
      · exact h4 j (by omega) hj2
    · rename_i he
      cases h
      refine ⟨Nat.le_refl _, by omega, ?_, by omega⟩
      have hlt : b < fl.length := by omega
      simp only [FL, List.getElem?_eq_getElem hlt] at *
      simpa using he

theorem findBucket_none (fl : List (List Nat)) : ∀ (rem b : Nat), b + rem = fl.length →
    findBucket fl b rem = none → ∀ j, b ≤ j → FL fl j = [] := by
  intro rem
  induction rem with
  | zero =>
    intro b hb _ j hj
    simp [FL, List.getElem?_eq_none (show fl.length ≤ j by omega)]
  | succ rem ih =>
    intro b hb h j hj
    simp only [findBucket] at h
    split at h
    · rename_i he
      by_cases hjb : j = b
      · subst hjb; simp [FL, he]
      · exact ih (b + 1) (by omega) h j (by omega)
    · cases h

/-- Closed form of the splitting loop when the lists below the found bucket are empty. -/
theorem splitLoop_spec (orig : Nat) : ∀ (d : Nat) (fl : List (List Nat)) (block : Nat) (rest : List Nat),
    orig + d < fl.length → FL fl (orig + d) = block :: rest →
    (∀ j, orig ≤ j → j < orig + d → FL fl j = []) →
    ∃ fl', splitLoop orig d fl = .ok fl' ∧ fl'.length = fl.length ∧
      (∀ c, FL fl' c = if d = 0 then FL fl c
        else if c = orig then [block, block + 2 ^ orig]
        else if orig < c ∧ c < orig + d then [block + 2 ^ c]
        else if c = orig + d then rest else FL fl c) := by
  intro d
  induction d with
  | zero => intro fl block rest _ _ _; exact ⟨fl, rfl, rfl, by simp⟩
  | succ d ih =>
    intro fl block rest hlen hfl hemp
    obtain ⟨hpop, hb⟩ := popFront_ok fl (orig + d + 1) block rest hfl
    simp only [splitLoop, hpop]
    have h1 : orig + d < (fl.set (orig + d + 1) rest).length := by simp; omega
    have h2 : orig + d < (pushBack (fl.set (orig + d + 1) rest) (orig + d) block).length := by
      rw [length_push]; exact h1
    have hF : ∀ c, FL (pushBack (pushBack (fl.set (orig + d + 1) rest) (orig + d) block) (orig + d)
        (block + 2 ^ (orig + d))) c =
        if c = orig + d then [block, block + 2 ^ (orig + d)]
        else if c = orig + d + 1 then rest else FL fl c := by
      intro c
      rw [FL_push _ _ _ h2, FL_push _ _ _ h1, FL_push _ _ _ h1]
      simp only [FL_set fl _ _ hb]
      have := hemp (orig + d) (by omega) (by omega)
      grind
    obtain ⟨fl', e1, e2, e3⟩ := ih (pushBack (pushBack (fl.set (orig + d + 1) rest) (orig + d) block)
        (orig + d) (block + 2 ^ (orig + d))) block [block + 2 ^ (orig + d)]
      (by rw [length_push, length_push]; exact h1)
      (by rw [hF]; simp)
      (by
        intro j hj1 hj2
        rw [hF, if_neg (by omega), if_neg (by omega)]
        exact hemp j hj1 (by omega))
    refine ⟨fl', e1, by rw [e2, length_push, length_push, List.length_set], ?_⟩
    intro c
    rw [e3]
    simp only [hF]
    cases d with
    | zero => grind
    | succ d => grind

/-- The tree replacing a free leaf of level `orig + d` from which a level-`orig` block is allocated. -/
def splitTree : Nat → Tree
  | 0 => .used
  | d + 1 => .node (splitTree d) .free

theorem splitTree_ne_free (d : Nat) : splitTree d ≠ .free := by cases d <;> simp [splitTree]

theorem splitTree_norm (d : Nat) : (splitTree d).Norm := by
  induction d with
  | zero => trivial
  | succ d ih => simp [splitTree, Norm, ih, splitTree_ne_free]

theorem splitTree_fits (d orig : Nat) : (splitTree d).Fits (orig + d) := by
  induction d with
  | zero => trivial
  | succ d ih => exact ⟨ih, trivial⟩

/-- Project the free leaves of level `b`. -/
def freeAt (b : Nat) (x : Blk) : Option Nat := if x.1 = true ∧ x.2.2 = b then some x.2.1 else none

/-- Project the used leaves. -/
def usedAt (x : Blk) : Option (Nat × Nat) := if x.1 = false then some (x.2.1, x.2.2) else none

theorem splitTree_free (d orig a b : Nat) :
    ((splitTree d).leaves (orig + d) a).filterMap (freeAt b)
      = if orig ≤ b ∧ b < orig + d then [a + 2 ^ b] else [] := by
  induction d with
  | zero => simp [splitTree, leaves, freeAt]
  | succ d ih =>
    simp only [splitTree, ← Nat.add_assoc, leaves, List.filterMap_append, ih]
    simp only [List.filterMap_cons, List.filterMap_nil, freeAt]
    by_cases h : orig + d = b
    · subst h; simp
    · simp only [h, and_false, if_false, List.append_nil]
      by_cases hb : orig ≤ b ∧ b < orig + d
      · rw [if_pos hb, if_pos (by omega)]
      · rw [if_neg hb, if_neg (by omega)]

theorem splitTree_used (d orig a : Nat) :
    ((splitTree d).leaves (orig + d) a).filterMap usedAt = [(a, orig)] := by
  induction d with
  | zero => simp [splitTree, leaves, usedAt]
  | succ d ih =>
    simp only [splitTree, ← Nat.add_assoc, leaves, List.filterMap_append, ih]
    simp [usedAt]

/-! ## The representation invariant -/

/-- `s` is represented by the tree `t`. -/
structure Rep (s : Buddy) (top : Nat) (t : Tree) : Prop where
  len : s.freeLists.length = top + 1
  fits : t.Fits top
  norm : t.Norm
  free : ∀ b, (FL s.freeLists b).Perm ((t.leaves top 0).filterMap (freeAt b))
  used : s.allocations.Perm ((t.leaves top 0).filterMap usedAt)

theorem rep_init (size minAlloc : Nat) :
    Rep (init size minAlloc) (bitLength (size - 1)) .free := by
  refine ⟨by simp [init], trivial, trivial, ?_, by simp [init, leaves, usedAt]⟩
  intro b
  simp only [leaves, FL, init]
  rw [List.getElem?_append]
  simp only [List.length_replicate, List.getElem?_replicate]
  by_cases h : b < bitLength (size - 1)
  · simp [h, freeAt]; omega
  · simp only [h, if_false]
    by_cases hb : b = bitLength (size - 1)
    · subst hb; simp [freeAt]
    · rw [List.getElem?_eq_none (by simp; omega)]
      simp [freeAt]; omega

theorem mem_freeAt {l : List Blk} {b a : Nat} : a ∈ l.filterMap (freeAt b) ↔ (true, a, b) ∈ l := by
  simp only [List.mem_filterMap, freeAt]
  constructor
  · rintro ⟨⟨f, a', b'⟩, hx, h⟩
    simp only at h
    split at h
    · rename_i hc; obtain ⟨rfl, rfl⟩ := hc; cases h; exact hx
    · cases h
  · intro h; exact ⟨_, h, by simp⟩

theorem mem_usedAt {l : List Blk} {a b : Nat} : (a, b) ∈ l.filterMap usedAt ↔ (false, a, b) ∈ l := by
  simp only [List.mem_filterMap, usedAt]
  constructor
  · rintro ⟨⟨f, a', b'⟩, hx, h⟩
    simp only at h
    split at h
    · rename_i hc; subst hc; cases h; exact hx
    · cases h
  · intro h; exact ⟨_, h, by simp⟩

theorem Rep.mem_free {s : Buddy} {top : Nat} {t : Tree} (h : Rep s top t) {a b : Nat} :
    a ∈ FL s.freeLists b ↔ (true, a, b) ∈ t.leaves top 0 := by
  rw [(h.free b).mem_iff, mem_freeAt]

theorem Rep.mem_used {s : Buddy} {top : Nat} {t : Tree} (h : Rep s top t) {a b : Nat} :
    (a, b) ∈ s.allocations ↔ (false, a, b) ∈ t.leaves top 0 := by
  rw [h.used.mem_iff, mem_usedAt]

/-- The bucket requested by `alloc(n)`. -/
def reqBucket (s : Buddy) (n : Nat) : Nat := bitLength (max n s.minAlloc - 1)

theorem pairwise_of_rep {s : Buddy} {top : Nat} {t : Tree} (h : Rep s top t) :
    (t.leaves top 0).Pairwise Disj := leaves_pairwise t top 0 h.fits (Nat.dvd_zero _)

theorem disj_of_mem {l : List Blk} (hp : l.Pairwise Disj) {x y : Blk} (hx : x ∈ l) (hy : y ∈ l)
    (hne : x ≠ y) : Disj x y := by
  induction l with
  | nil => cases hx
  | cons z l ih =>
    rw [List.pairwise_cons] at hp
    rcases List.mem_cons.1 hx with hx1 | hx1
    · rcases List.mem_cons.1 hy with hy1 | hy1
      · exact absurd (hx1.trans hy1.symm) hne
      · rw [hx1]; exact hp.1 y hy1
    · rcases List.mem_cons.1 hy with hy1 | hy1
      · rw [hy1]; exact (hp.1 x hx1).symm
      · exact ih hp.2 hx1 hy1

theorem alloc_spec {s : Buddy} {top : Nat} {t : Tree} (h : Rep s top t) (n : Int)
    (h1 : 1 ≤ n) (h2 : n ≤ s.size) :
    (∃ block t' s', s.alloc n = (.ok block, s') ∧ Rep s' top t' ∧
      s'.size = s.size ∧ s'.minAlloc = s.minAlloc ∧
      (∃ bk, s.reqBucket n.toNat ≤ bk ∧ (true, block, bk) ∈ t.leaves top 0) ∧
      s'.allocations.Perm ((block, s.reqBucket n.toNat) :: s.allocations)) ∨
    (s.alloc n = (.error .exception, s) ∧
      ∀ bk a, s.reqBucket n.toNat ≤ bk → (true, a, bk) ∉ t.leaves top 0) := by
  simp only [alloc]
  rw [if_neg (by omega)]
  have horig : bitLength (max n.toNat s.minAlloc - 1) = s.reqBucket n.toNat := rfl
  simp only [horig]
  generalize s.reqBucket n.toNat = orig
  by_cases hot : orig ≤ s.freeLists.length
  · cases hfb : findBucket s.freeLists orig (s.freeLists.length - orig) with
    | none =>
      right
      refine ⟨rfl, ?_⟩
      intro bk a hbk hmem
      rw [← h.mem_free, findBucket_none _ _ orig (by omega) hfb bk hbk] at hmem
      cases hmem
    | some bucket =>
      left
      obtain ⟨hle, hlt, hne, hemp⟩ := findBucket_some _ _ orig bucket (by omega) hfb
      obtain ⟨d, rfl⟩ : ∃ d, bucket = orig + d := ⟨bucket - orig, by omega⟩
      obtain ⟨block, rest, hbr⟩ : ∃ block rest, FL s.freeLists (orig + d) = block :: rest := by
        cases hc : FL s.freeLists (orig + d) with
        | nil => exact absurd hc hne
        | cons x r => exact ⟨x, r, rfl⟩
      obtain ⟨fl', e1, e2, e3⟩ := splitLoop_spec orig d s.freeLists block rest hlt hbr hemp
      simp only [show orig + d - orig = d by omega, e1]
      have hF0 : ∃ r, FL fl' orig = block :: r ∧ r = (if d = 0 then rest else [block + 2 ^ orig]) := by
        rw [e3]
        by_cases hd : d = 0
        · subst hd; simp only [if_true]; exact ⟨rest, hbr, rfl⟩
        · simp only [hd, if_false, if_true]; exact ⟨_, rfl, rfl⟩
      obtain ⟨r, hr, hrr⟩ := hF0
      obtain ⟨hpop, hlt'⟩ := popFront_ok fl' orig block r hr
      simp only [hpop]
      have hmem : (true, block, orig + d) ∈ t.leaves top 0 := by
        rw [← h.mem_free, hbr]; simp
      obtain ⟨p, hp1, hp2, hp3⟩ := exists_path t top 0 [] _ h.fits rfl hmem
      simp only [if_true, plug, List.length_nil, Nat.add_zero] at hp1 hp2 hp3
      have hperm0 := leaves_plug p .free (orig + d)
      rw [hp1, hp3, hp2] at hperm0
      have hperm1 := leaves_plug p (splitTree d) (orig + d)
      rw [hp3, hp2] at hperm1
      have hfit := (fits_plug p .free (orig + d))
      rw [hp3, hp1] at hfit
      have hfit' := (fits_plug p (splitTree d) (orig + d))
      rw [hp3] at hfit'
      have hnorm := norm_plug p .free
      rw [hp1] at hnorm
      have hctxfree : ∀ b, (FL s.freeLists b).Perm
          ((if b = orig + d then [block] else []) ++ (cleaves p (orig + d)).filterMap (freeAt b)) := by
        intro b
        refine (h.free b).trans ?_
        refine (hperm0.filterMap (freeAt b)).trans ?_
        rw [List.filterMap_append]
        apply List.Perm.append_right
        simp only [leaves, List.filterMap_cons, List.filterMap_nil, freeAt]
        by_cases hb : orig + d = b
        · subst hb; simp
        · simp [hb, Ne.symm hb]
      have hctxused : s.allocations.Perm ((cleaves p (orig + d)).filterMap usedAt) := by
        refine h.used.trans ((hperm0.filterMap usedAt).trans ?_)
        simp [leaves, usedAt]
      have hnotin : ∀ q ∈ s.allocations, q.1 ≠ block := by
        intro q hq hqb
        have hm := (h.mem_used (a := q.1) (b := q.2)).1 hq
        have := disj_of_mem (pairwise_of_rep h) hm hmem (by simp)
        simp only [Disj] at this
        have i1 : 0 < 2 ^ q.2 := Nat.pow_pos (by decide)
        have i2 : 0 < 2 ^ (orig + d) := Nat.pow_pos (by decide)
        omega
      have hds : dictSet s.allocations block orig = (block, orig) :: s.allocations := by
        simp only [dictSet]
        congr 1
        rw [List.filter_eq_self]
        intro q hq; simpa using hnotin q hq
      refine ⟨block, plug p (splitTree d), _, rfl, ?_, rfl, rfl, ⟨orig + d, by omega, hmem⟩, ?_⟩
      · refine ⟨?_, ?_, ?_, ?_, ?_⟩
        · simp [e2, h.len]
        · exact hfit'.2 ⟨splitTree_fits d orig, (hfit.1 h.fits).2⟩
        · refine (norm_plug p _).2 ⟨splitTree_norm d, (hnorm.1 h.norm).2.1, ?_⟩
          cases p with
          | nil => trivial
          | cons hd p => simp [headOK, splitTree_ne_free]
        · intro b
          refine List.Perm.trans ?_ (hperm1.filterMap (freeAt b)).symm
          rw [List.filterMap_append, splitTree_free]
          simp only [FL_set fl' _ _ hlt', e3]
          have hc := hctxfree b
          have hcd := hctxfree (orig + d)
          rw [hbr, if_pos rfl] at hcd
          have hrest : rest.Perm ((cleaves p (orig + d)).filterMap (freeAt (orig + d))) :=
            List.Perm.cons_inv hcd
          by_cases hd : d = 0
          · subst hd
            simp only [Nat.add_zero, if_true] at *
            rw [if_neg (show ¬ (orig ≤ b ∧ b < orig) by omega), List.nil_append]
            by_cases hb : b = orig
            · subst hb; simp only [if_true]; rw [hrr]; exact hrest
            · simp only [hb, if_false, List.nil_append] at hc ⊢; exact hc
          · simp only [hd, if_false] at hrr ⊢
            by_cases hb : b = orig
            · subst hb
              simp only [if_true]
              rw [if_pos (show b ≤ b ∧ b < b + d by omega), hrr]
              have := hemp b (by omega) (by omega)
              rw [this, if_neg (show ¬ b = b + d by omega), List.nil_append] at hc
              rw [hc.symm.eq_nil]; simp
            · rw [if_neg hb, if_neg hb]
              by_cases hb2 : orig < b ∧ b < orig + d
              · rw [if_pos hb2, if_pos (show orig ≤ b ∧ b < orig + d by omega)]
                have := hemp b (by omega) (by omega)
                rw [this, if_neg (show ¬ b = orig + d by omega), List.nil_append] at hc
                rw [hc.symm.eq_nil]; simp
              · rw [if_neg hb2, if_neg (show ¬ (orig ≤ b ∧ b < orig + d) by omega), List.nil_append]
                by_cases hb3 : b = orig + d
                · subst hb3; rw [if_pos rfl]; exact hrest
                · rw [if_neg hb3] at hc ⊢; exact hc
        · refine List.Perm.trans ?_ (hperm1.filterMap usedAt).symm
          rw [List.filterMap_append, splitTree_used]
          simp only [hds]
          exact List.Perm.cons _ hctxused
      · simp only [hds]; exact List.Perm.refl _
  · right
    have : s.freeLists.length - orig = 0 := by omega
    simp only [this, findBucket]
    refine ⟨trivial, ?_⟩
    intro bk a hbk hmem
    have := leaf_range t top 0 _ h.fits (Nat.dvd_zero _) hmem
    have := h.len
    simp at *
    omega

/-- The merging loop, started at a hole, reaches a normalised tree. -/
theorem freeLoop_spec (p : Path) : ∀ (b : Nat) (fl : List (List Nat)),
    fl.length = b + p.length + 1 → CFits p b → CNorm p →
    (∀ c, (FL fl c).Perm ((cleaves p b).filterMap (freeAt c))) →
    ∃ (t' : Tree) (fl' : List (List Nat)), freeLoop (pbase p b) b (p.length + 1) fl = (.ok (), fl') ∧ fl'.length = fl.length ∧
      t'.Fits (b + p.length) ∧ t'.Norm ∧
      (∀ c, (FL fl' c).Perm ((t'.leaves (b + p.length) 0).filterMap (freeAt c))) ∧
      ((t'.leaves (b + p.length) 0).filterMap usedAt).Perm ((cleaves p b).filterMap usedAt) := by
  induction p with
  | nil =>
    intro b fl hlen hfit hnorm hfl
    have hlt : b < fl.length := by simp at hlen; omega
    simp only [List.length_nil, freeLoop, pbase, List.getElem?_eq_getElem hlt]
    have hemp : ∀ c, FL fl c = [] := by
      intro c; have := hfl c; simp [cleaves] at this; exact this
    have hb : fl[b] = [] := by
      have := hemp b; simpa [FL, List.getElem?_eq_getElem hlt] using this
    rw [if_neg (by simp [hb])]
    refine ⟨.free, _, rfl, length_push _ _ _, trivial, trivial, ?_, ?_⟩
    · intro c
      rw [FL_push _ _ _ hlt, hemp, hemp]
      simp only [leaves, List.filterMap_cons, List.filterMap_nil, freeAt]
      by_cases hc : c = b
      · subst hc; simp
      · simp [hc, Ne.symm hc]
    · simp [leaves, usedAt, cleaves]
  | cons hd p ih =>
    intro b fl hlen hfit hnorm hfl
    obtain ⟨d, s⟩ := hd
    simp only [List.length_cons] at hlen
    simp only [CFits] at hfit
    simp only [CNorm] at hnorm
    have hlt : b < fl.length := by omega
    have hpw : 0 < 2 ^ b := Nat.pow_pos (by decide)
    have hp2 := Nat.pow_succ (m := b) (n := 2)
    have hdv := pbase_dvd p (b + 1)
    -- the buddy address
    have hbud : (if (pbase ((d, s) :: p) b / 2 ^ b) % 2 = 1 then pbase ((d, s) :: p) b - 2 ^ b
        else pbase ((d, s) :: p) b + 2 ^ b) = pbase p (b + 1) + (if d then 0 else 2 ^ b) := by
      obtain ⟨u, hu⟩ := hdv
      simp only [pbase, hu]
      rw [hp2]
      have e1 : 2 ^ b * 2 * u = 2 ^ b * (2 * u) := by rw [Nat.mul_assoc]
      cases d with
      | false =>
        simp only [Bool.false_eq_true, if_false, Nat.add_zero]
        rw [e1, Nat.mul_div_cancel_left _ hpw, if_neg (by omega)]
      | true =>
        simp only [if_true, Nat.add_zero]
        rw [e1, show 2 ^ b * (2 * u) + 2 ^ b = 2 ^ b * (2 * u + 1) by rw [Nat.mul_succ],
          Nat.mul_div_cancel_left _ hpw, if_pos (by omega), Nat.mul_succ]
        omega
    simp only [List.length_cons, freeLoop, hbud, List.getElem?_eq_getElem hlt]
    have hflb : FL fl b = fl[b] := by simp [FL, List.getElem?_eq_getElem hlt]
    -- is the buddy free?
    have hiff : pbase p (b + 1) + (if d then 0 else 2 ^ b) ∈ fl[b] ↔ s = .free := by
      rw [← hflb, (hfl b).mem_iff, mem_freeAt]
      simp only [cleaves, List.mem_append]
      constructor
      · rintro (hx | hx)
        · cases s with
          | free => rfl
          | used => simp [leaves] at hx
          | node l r =>
            exfalso
            cases b with
            | zero => simp [Fits] at hfit
            | succ b =>
              simp only [Fits] at hfit
              simp only [leaves, List.mem_append] at hx
              have hd1 : 2 ^ (b + 1) ∣ pbase p (b + 1 + 1) + (if d then 0 else 2 ^ (b + 1)) := by
                have : 2 ^ (b + 1) ∣ pbase p (b + 1 + 1) := Nat.dvd_trans ⟨2, by rw [Nat.pow_succ]⟩ hdv
                cases d <;> simp
                · exact Nat.dvd_add this (Nat.dvd_refl _)
                · exact this
              have hd2 : 2 ^ b ∣ pbase p (b + 1 + 1) + (if d then 0 else 2 ^ (b + 1)) :=
                Nat.dvd_trans ⟨2, by rw [Nat.pow_succ]⟩ hd1
              rcases hx with hx | hx
              · have h9 : b + 1 ≤ b := (leaf_range l b _ _ hfit.1.1 hd2 hx).1
                omega
              · have h9 : b + 1 ≤ b :=
                  (leaf_range r b _ _ hfit.1.2 (Nat.dvd_add hd2 (Nat.dvd_refl _)) hx).1
                omega
        · exfalso
          have := cleaves_disj p (b + 1) _ hfit.2 hx
          simp only [Disj] at this
          cases d <;> simp at this <;> omega
      · rintro rfl; left; simp [leaves]
    by_cases hs : s = .free
    · subst hs
      rw [if_pos (hiff.2 rfl)]
      have hmin : min (pbase ((d, Tree.free) :: p) b) (pbase p (b + 1) + (if d then 0 else 2 ^ b))
          = pbase p (b + 1) := by
        simp only [pbase]; cases d <;> simp
      rw [hmin]
      obtain ⟨t', fl', e1, e2, e3, e4, e5, e6⟩ := ih (b + 1)
        (fl.set b (fl[b].erase (pbase p (b + 1) + (if d then 0 else 2 ^ b))))
        (by simp; omega) hfit.2 hnorm.2
        (by
          intro c
          rw [FL_set _ _ _ hlt]
          by_cases hc : c = b
          · subst hc
            rw [if_pos rfl]
            have := hfl c
            rw [hflb] at this
            simp only [cleaves, leaves, List.filterMap_cons, freeAt, and_self, if_true, List.singleton_append] at this
            have h2 := List.Perm.erase (pbase p (c + 1) + (if d then 0 else 2 ^ c)) this
            rw [List.erase_cons_head] at h2
            exact h2
          · rw [if_neg hc]
            have := hfl c
            simpa [cleaves, leaves, freeAt, Ne.symm hc] using this)
      rw [List.length_set] at e2
      rw [show b + 1 + p.length = b + (p.length + 1) by omega] at e3 e5 e6
      exact ⟨t', fl', e1, e2, e3, e4, e5, by simpa [cleaves, leaves, usedAt] using e6⟩
    · rw [if_neg (fun h => hs (hiff.1 h))]
      have hperm := leaves_plug ((d, s) :: p) .free b
      rw [List.length_cons] at hperm
      refine ⟨plug ((d, s) :: p) .free, _, rfl, length_push _ _ _, ?_, ?_, ?_, ?_⟩
      · have := (fits_plug ((d, s) :: p) .free b).2 ⟨trivial, hfit⟩
        simpa using this
      · exact (norm_plug _ _).2 ⟨trivial, hnorm, by simp [headOK, hs]⟩
      · intro c
        refine List.Perm.trans ?_ (hperm.filterMap (freeAt c)).symm
        rw [List.filterMap_append, FL_push _ _ _ hlt]
        by_cases hc : c = b
        · subst hc
          rw [if_pos rfl]
          simp only [leaves, List.filterMap_cons, List.filterMap_nil, freeAt, and_self, if_true]
          exact (List.Perm.append_right _ (hfl c)).trans List.perm_append_comm
        · rw [if_neg hc]
          simpa [leaves, freeAt, Ne.symm hc] using hfl c
      · refine (hperm.filterMap usedAt).trans ?_
        rw [List.filterMap_append]
        simp [leaves, usedAt]

theorem lookup_some {l : List (Nat × Nat)} {a b : Nat} (h : l.lookup a = some b) : (a, b) ∈ l := by
  induction l with
  | nil => simp at h
  | cons x l ih =>
    obtain ⟨k, v⟩ := x
    simp only [List.lookup] at h
    split at h
    · rename_i hk; simp at hk; subst hk; cases h; simp
    · exact List.mem_cons_of_mem _ (ih h)

theorem lookup_none {l : List (Nat × Nat)} {a : Nat} (h : l.lookup a = none) : ∀ b, (a, b) ∉ l := by
  induction l with
  | nil => simp
  | cons x l ih =>
    obtain ⟨k, v⟩ := x
    simp only [List.lookup] at h
    split at h
    · cases h
    · rename_i hk
      intro b hb
      rcases List.mem_cons.1 hb with hb | hb
      · cases hb; simp at hk
      · exact ih h b hb

theorem free_spec {s : Buddy} {top : Nat} {t : Tree} (h : Rep s top t) (a : Nat) :
    ((∃ b, (a, b) ∈ s.allocations) → ∃ t' s', s.free a = (.ok (), s') ∧ Rep s' top t' ∧
      s'.size = s.size ∧ s'.minAlloc = s.minAlloc ∧
      s'.allocations = s.allocations.filter (fun p => p.1 ≠ a)) ∧
    ((∀ b, (a, b) ∉ s.allocations) → s.free a = (.error .valueError, s)) := by
  simp only [free]
  rw [if_neg (by omega)]
  simp only [Int.toNat_natCast]
  cases hl : s.allocations.lookup a with
  | none =>
    refine ⟨?_, fun _ => rfl⟩
    rintro ⟨b, hb⟩
    exact absurd hb (lookup_none hl b)
  | some b =>
    refine ⟨fun _ => ?_, fun hn => absurd (lookup_some hl) (hn b)⟩
    have hmem := (h.mem_used).1 (lookup_some hl)
    obtain ⟨p, hp1, hp2, hp3⟩ := exists_path t top 0 [] _ h.fits rfl hmem
    simp only [Bool.false_eq_true, if_false, plug, List.length_nil, Nat.add_zero] at hp1 hp2 hp3
    have hperm := leaves_plug p .used b
    rw [hp3, hp1, hp2] at hperm
    have hfit := fits_plug p .used b
    rw [hp3, hp1] at hfit
    have hnorm := norm_plug p .used
    rw [hp1] at hnorm
    obtain ⟨t', fl', e1, e2, e3, e4, e5, e6⟩ := freeLoop_spec p b s.freeLists
      (by rw [h.len]; omega) (hfit.1 h.fits).2 (hnorm.1 h.norm).2.1
      (by
        intro c
        refine (h.free c).trans ((hperm.filterMap (freeAt c)).trans ?_)
        simp [leaves, freeAt])
    rw [hp2] at e1
    rw [hp3] at e3 e5 e6
    have hlen : s.freeLists.length - b = p.length + 1 := by rw [h.len]; omega
    simp only [hlen, e1]
    refine ⟨t', _, rfl, ⟨by rw [e2, h.len], e3, e4, e5, ?_⟩, rfl, rfl, rfl⟩
    refine List.Perm.trans ?_ e6.symm
    dsimp only
    have hu : s.allocations.Perm ((a, b) :: (cleaves p b).filterMap usedAt) := by
      refine h.used.trans ((hperm.filterMap usedAt).trans ?_)
      simp [leaves, usedAt]
    refine (hu.filter _).trans ?_
    rw [List.filter_cons_of_neg (by simp)]
    have : ((cleaves p b).filterMap usedAt).filter (fun p => decide (p.1 ≠ a))
        = (cleaves p b).filterMap usedAt := by
      rw [List.filter_eq_self]
      rintro ⟨a', b'⟩ hq
      rw [mem_usedAt] at hq
      have := cleaves_disj p b _ (hfit.1 h.fits).2 hq
      rw [hp2] at this
      simp only [Disj] at this
      have i1 : 0 < 2 ^ b := Nat.pow_pos (by decide)
      have i2 : 0 < 2 ^ b' := Nat.pow_pos (by decide)
      simp; omega
    rw [this]

end Buddy
end Verif
