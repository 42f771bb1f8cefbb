import Verif.Layout.Relro

/-!
# C111: sections are laid out apart, aligned, and such that the loader puts their contents there
-/

namespace Nature.Layout

open Spec (Tbss Aligned Apart Sized Fits ReadOnlyLater LoadedBy InMemory)

theorem layout_ok (base page headerSize : Nat) (secs : List Sec) (r : Result)
    (h : layout base page headerSize secs = .ok r) :
    ∃ rx rwOff st plan addr,
      layRo base secs headerSize = .ok (r.ro, rx) ∧ alignUp rx page = some rwOff ∧
      layRw page secs ⟨rwOff, (base + rwOff) % 2 ^ 64, {}⟩ = .ok (r.rw, st) ∧
      r.roSegment = ⟨0, base, rx, rx, true, false⟩ ∧
      r.rwSegment = ⟨rwOff, (base + rwOff) % 2 ^ 64, st.file - rwOff, addr - (base + rwOff) % 2 ^ 64,
        false, true⟩ ∧ r.plan = plan ∧
      ((plan = st.plan ∧ addr = st.addr ∧ (st.plan.present = true → st.plan.finalized = true)) ∨
        (st.plan.present = true ∧ ∃ f, st.plan.finalize page st.file st.addr = .ok (plan, f, addr))) := by
  unfold layout at h
  split at h
  · simp at h
  · rename_i ro rx h1
    split at h
    · simp at h
    · rename_i rwOff h2
      simp only at h
      split at h
      · simp at h
      · rename_i rw st h3
        split at h
        · simp at h
        · rename_i plan addr h4
          obtain rfl := Except.ok.inj h
          refine ⟨rx, rwOff, st, plan, addr, h1, h2, h3, rfl, rfl, rfl, ?_⟩
          split at h4
          · rename_i hc
            simp only [Bool.and_eq_true, Bool.not_eq_true'] at hc
            split at h4
            · simp at h4
            · rename_i plan' f addr' h5
              simp only [Except.ok.injEq, Prod.mk.injEq] at h4
              obtain ⟨rfl, rfl⟩ := h4
              exact Or.inr ⟨hc.1, f, h5⟩
          · rename_i hc
            simp only [Except.ok.injEq, Prod.mk.injEq] at h4
            obtain ⟨rfl, rfl⟩ := h4
            exact Or.inl ⟨rfl, rfl, fun hp => by simpa [hp] using hc⟩

/-- All sections that are to be loaded get a place; each is aligned; no two meet in memory or in the file;
the loader puts the contents of each at its address, and the memory of each belongs to a segment.
The restrictions are those of the counterexamples: alignments divide the address of the image,
no section that is read-only is zeroed, and contents do not come after zeroed memory. -/
theorem C111_sections_partial (base page headerSize : Nat) (secs : List Sec) (r : Result)
    (h : layout base page headerSize secs = .ok r)
    (hsize : r.rwSegment.off + base < 2 ^ 64) (hpage : base % page = 0)
    (hz : ∀ s ∈ secs, Sized s) (hfit : ∀ s ∈ secs, Fits base s)
    (hro : ∀ s ∈ secs, s.alloc = true → s.write = false → s.ty ≠ .nobits) :
    (r.ro.map (·.sec) = secs.filter (fun s => s.alloc && !s.write)) ∧
    (r.rw.map (·.sec) = secs.filter (fun s => s.alloc && s.write)) ∧
    (∀ p ∈ r.ro ++ r.rw, Aligned p) ∧
    (r.ro ++ r.rw).Pairwise Apart ∧
    (∀ p ∈ r.ro, headerSize ≤ p.off ∧ LoadedBy r.roSegment p ∧ InMemory r.roSegment p) ∧
    (∀ p ∈ r.rw, ¬ Tbss p.sec → InMemory r.rwSegment p) ∧
    (∀ (i : Nat) (p : Placed), r.rw[i]? = some p → p.sec.ty ≠ .nobits →
      (∀ (j : Nat) (q : Placed), j < i → r.rw[j]? = some q →
        q.sec.ty ≠ .nobits ∨ Tbss q.sec ∨ q.sec.size = 0) → LoadedBy r.rwSegment p) ∧
    r.roSegment.addr + r.roSegment.memSize ≤ r.rwSegment.addr ∧
    (page ≠ 0 → r.rwSegment.addr % page = 0) := by
  obtain ⟨rx, rwOff, st, plan, addr, h1, h2, h3, e1, e2, e3, h4⟩ := layout_ok base page headerSize secs r h
  rw [e2] at hsize
  simp only at hsize
  obtain ⟨a1, a2, _⟩ := alignUp_some _ _ _ h2
  have hw : (base + rwOff) % 2 ^ 64 = base + rwOff := Nat.mod_eq_of_lt (by omega)
  rw [hw] at h3 e2
  obtain ⟨o1, o2, o3, o4⟩ := layRo_spec base secs headerSize rx r.ro h1
  obtain ⟨w1, w2, w3, w4, w5, w6⟩ := layRw_spec page base hpage secs hz hfit _ st r.rw h3
  simp only at w1 w2 w4 w6
  have hend : st.addr ≤ addr := by
    rcases h4 with ⟨_, h, _⟩ | ⟨_, f, h⟩
    · omega
    · exact (alignUp_some _ _ _ (finalize_spec _ _ _ _ _ _ _ h).2.2.2.2.1).1
  have romem : ∀ p ∈ r.ro, p.sec ∈ secs ∧ isRo p.sec = true := by
    intro p hp
    have : p.sec ∈ r.ro.map (·.sec) := List.mem_map_of_mem hp
    rw [o2] at this
    exact List.mem_filter.mp this
  have rosz : ∀ p ∈ r.ro, p.sec.fileSize = p.sec.size := by
    intro p hp
    obtain ⟨m1, m2⟩ := romem p hp
    simp only [isRo, Bool.and_eq_true, Bool.not_eq_true'] at m2
    have := hz _ m1
    unfold Sized at this
    rwa [if_neg (hro _ m1 m2.1 m2.2)] at this
  have roaddr : ∀ p ∈ r.ro, p.addr = base + p.off := by
    intro p hp
    obtain ⟨_, q2, q3, _⟩ := o3 p hp
    rw [q3, Nat.mod_eq_of_lt (by omega)]
  refine ⟨o2, w3, ?_, ?_, ?_, ?_, ?_, ?_, ?_⟩
  · intro p hp
    rcases List.mem_append.mp hp with hp | hp
    · obtain ⟨_, _, _, q4⟩ := o3 p hp
      rcases q4 with q4 | q4
      · exact Or.inl q4
      · rcases hfit _ (romem p hp).1 with hf | hf
        · exact Or.inl hf
        · refine Or.inr ⟨?_, q4⟩
          rw [roaddr p hp, Nat.add_mod, hf, q4]
          simp
    · exact (w4 p hp).2.2.1
  · rw [List.pairwise_append]
    refine ⟨?_, w5, ?_⟩
    · refine (List.Pairwise.and_mem.mp o4).imp ?_
      rintro p q ⟨hp, hq, hpq⟩ _
      rw [roaddr p hp, roaddr q hq, ← rosz p hp]
      omega
    · intro p hp q hq _
      obtain ⟨_, q2, _⟩ := o3 p hp
      obtain ⟨q3, q4, _⟩ := w4 q hq
      rw [roaddr p hp, ← rosz p hp]
      omega
  · intro p hp
    obtain ⟨q1, q2, _⟩ := o3 p hp
    rw [e1]
    refine ⟨q1, ⟨p.off, by simp, roaddr p hp, q2⟩, ?_, ?_⟩
    · simp only; rw [roaddr p hp]; omega
    · simp only; rw [roaddr p hp, ← rosz p hp]; omega
  · intro p hp hn
    obtain ⟨q1, _, _, q4⟩ := w4 p hp
    have := q4 hn
    rw [e2]
    exact ⟨q1, by simp only; omega⟩
  · intro i p hp hty hbefore
    have hm := List.mem_of_getElem? hp
    obtain ⟨q1, q2, _, q4⟩ := w4 p hm
    have hn : ¬ Tbss p.sec := fun ht => hty ht.2
    have := q4 hn
    have e := w6 (by trivial) i p hp (by
      rintro j q hj hq ⟨z1, z2, z3⟩
      rcases hbefore j q hj hq with g | g | g
      · exact g z1
      · exact z2 g
      · exact z3 g)
    rw [e2]
    exact ⟨p.off - rwOff, by simp only; omega, by simp only; omega, by simp only; omega⟩
  · rw [e1, e2]; simp only; omega
  · intro hp0
    rw [e2]
    simp only
    rcases a2 with a2 | a2
    · exact absurd a2 hp0
    · rw [Nat.add_mod, hpage, a2]; simp

/-- The region that is made read-only after relocation holds all sections that are only written until
then, and no byte of another section that takes memory; it ends at a page, and a section that is
placed after one that it holds begins on a page after it. -/
theorem C111_relro_partial (base page headerSize : Nat) (secs : List Sec) (r : Result)
    (h : layout base page headerSize secs = .ok r)
    (hz : ∀ s ∈ secs, Sized s) :
    (∀ p ∈ r.rw, ReadOnlyLater p.sec → r.plan.present = true ∧ r.plan.address ≤ p.addr ∧
      p.addr + p.sec.size ≤ r.plan.protectionEnd) ∧
    (r.plan.present = true → r.plan.protectionEnd % page = 0 ∧
      ∀ p ∈ r.rw, ¬ ReadOnlyLater p.sec → p.sec.size ≠ 0 → ¬ Tbss p.sec →
        p.addr + p.sec.size ≤ r.plan.address ∨ r.plan.protectionEnd ≤ p.addr) ∧
    (∀ (i j : Nat) (p q : Placed), r.rw[i]? = some p → r.rw[j]? = some q → j < i →
      ReadOnlyLater q.sec → ¬ ReadOnlyLater p.sec → p.sec.size ≠ 0 → ¬ Tbss p.sec →
      r.plan.protectionEnd ≤ p.addr) := by
  obtain ⟨rx, rwOff, st, plan, addr, h1, h2, h3, e1, e2, e3, h4⟩ := layout_ok base page headerSize secs r h
  obtain ⟨i1, i2, i3, i4, i5, i6, i7, i8⟩ := relro_spec page secs hz _ st r.rw h3
    ⟨by intro h; simp at h, by intro h; simp at h⟩
  have loose : ∀ s, ¬ ReadOnlyLater s → s.size ≠ 0 → ¬ Tbss s → Loose s := by
    intro s l1 l2 l3
    refine ⟨?_, l2, l3⟩
    rcases hp : protectedSec s with _ | _
    · rfl
    · exact absurd ((protected_iff s).mp hp) l1
  rw [e3]
  rcases h4 with ⟨rfl, rfl, hfin⟩ | ⟨hpres, f, hf⟩
  · refine ⟨?_, ?_, ?_⟩
    · intro p hp hl
      obtain ⟨g1, g2, g3⟩ := i5 p hp ((protected_iff _).mpr hl)
      rw [lim, if_pos (hfin g1)] at g3
      exact ⟨g1, g2, g3⟩
    · intro hpr
      refine ⟨(i1.done (hfin hpr)).2, ?_⟩
      intro p hp l1 l2 l3
      rcases i7 p hp (loose _ l1 l2 l3) rfl hpr with g | g
      · exact Or.inl g
      · exact Or.inr g.2
    · intro i j p q hp hq hij hl l1 l2 l3
      exact (i8 i j p q hp hq hij (loose _ l1 l2 l3) ((protected_iff _).mpr hl)).2
  · obtain ⟨f1, f2, f3, f4, f5, f6, f7⟩ := finalize_spec _ _ _ _ _ _ _ hf
    obtain ⟨g1, g2, _⟩ := alignUp_some _ _ _ f5
    have p1 : plan.present = true := by rw [f2]; exact hpres
    have p2 : plan.address = st.plan.address := by rw [f2]
    have p3 : plan.protectionEnd = addr := by rw [f2]
    have nofin : ¬ st.plan.finalized = true := by simp [f1]
    refine ⟨?_, ?_, ?_⟩
    · intro p hp hl
      obtain ⟨k1, k2, k3⟩ := i5 p hp ((protected_iff _).mpr hl)
      rw [lim, if_neg nofin] at k3
      exact ⟨p1, by rw [p2]; exact k2, by rw [p3]; omega⟩
    · intro _
      refine ⟨?_, ?_⟩
      · rw [p3]
        rcases g2 with g2 | g2
        · exact absurd g2 f7
        · exact g2
      · intro p hp l1 l2 l3
        rcases i7 p hp (loose _ l1 l2 l3) rfl hpres with g | g
        · rw [p2]; exact Or.inl g
        · exact absurd g.1 nofin
    · intro i j p q hp hq hij hl l1 l2 l3
      exact absurd (i8 i j p q hp hq hij (loose _ l1 l2 l3) ((protected_iff _).mpr hl)).1 nofin

theorem lookup_mem {β : Type} (l : List (String × β)) (k : String) (v : β) (h : l.lookup k = some v) :
    (k, v) ∈ l := by
  induction l with
  | nil => simp at h
  | cons e l ih =>
    rw [List.lookup_cons] at h
    split at h
    · rename_i he
      have he : k = e.1 := by simpa using he
      rw [he, ← Option.some.inj h]
      simp
    · exact List.mem_cons_of_mem _ (ih h)

theorem rank_contents (s : Sec) (h1 : s.alloc = true) (h2 : s.write = true) (h3 : s.exec = false)
    (h4 : s.ty ≠ .nobits) (h5 : s.name ≠ ".bss") : rank s < 80 := by
  unfold rank
  rw [if_neg (by simp [h1])]
  split
  · rename_i v hv
    have key : ∀ e ∈ ranks, e.1 ≠ ".bss" → e.2 < 80 := by decide
    exact key _ (lookup_mem _ _ _ hv) h5
  · simp [h2, h3, h4]

theorem rank_zeroed (s : Sec) (h1 : s.alloc = true) (h2 : s.write = true) (h3 : s.exec = false)
    (h4 : s.ty = .nobits) (h5 : s.name = ".bss" ∨ ∀ e ∈ ranks, e.1 ≠ s.name) : rank s = 80 := by
  unfold rank
  rw [if_neg (by simp [h1])]
  rcases h5 with h5 | h5
  · rw [h5]; rfl
  · split
    · rename_i v hv
      exact absurd rfl (h5 _ (lookup_mem _ _ _ hv))
    · simp [h2, h3, h4]

/-- In the order of the linker contents do not come after zeroed memory, unless memory is to be written and
executed, or has a name that says otherwise: then the loader puts the contents of every section at its
address, and no section is left out. -/
theorem C111_ordered_partial (base page headerSize : Nat) (secs sorted : List Sec) (r : Result)
    (ho : Ordered secs sorted) (h : layout base page headerSize sorted = .ok r)
    (hsize : r.rwSegment.off + base < 2 ^ 64) (hpage : base % page = 0)
    (hz : ∀ s ∈ secs, Sized s) (hfit : ∀ s ∈ secs, Fits base s)
    (hro : ∀ s ∈ secs, s.alloc = true → s.write = false → s.ty ≠ .nobits)
    (hexec : ∀ s ∈ secs, s.alloc = true → s.write = true → s.exec = false)
    (hname : ∀ s ∈ secs, s.alloc = true → s.write = true → s.ty = .nobits → s.tls = false →
      s.name ∉ [".note.gnu.property", ".dynsym", ".dynstr", ".hash", ".gnu.hash", ".rela.dyn", ".init",
        ".text", ".fini", ".plt.got", ".rodata", ".eh_frame_hdr", ".eh_frame", ".tdata", ".tbss",
        ".preinit_array", ".init_array", ".fini_array", ".data.rel.ro", ".bss.rel.ro", ".dynamic", ".got",
        ".data"])
    (hbss : ∀ s ∈ secs, s.name = ".bss" → s.ty = .nobits) :
    (∀ s ∈ secs, s.alloc = true → ∃ p ∈ r.ro ++ r.rw, p.sec = s) ∧
    (∀ p ∈ r.ro, LoadedBy r.roSegment p ∧ InMemory r.roSegment p) ∧
    (∀ p ∈ r.rw, p.sec.ty ≠ .nobits → LoadedBy r.rwSegment p) ∧
    (∀ p ∈ r.rw, ¬ Tbss p.sec → InMemory r.rwSegment p) := by
  have hm : ∀ s, s ∈ sorted ↔ s ∈ secs := fun s => ho.perm.mem_iff
  have hsorted := ho.byRank
  obtain ⟨o1, o2, _, _, o5, o6, o7, _, _⟩ := C111_sections_partial base page headerSize sorted r h hsize
    hpage (fun s hs => hz s ((hm s).mp hs)) (fun s hs => hfit s ((hm s).mp hs))
    (fun s hs => hro s ((hm s).mp hs))
  refine ⟨?_, fun p hp => (o5 p hp).2, ?_, o6⟩
  · intro s hs ha
    rcases hw : s.write with _ | _
    · have : s ∈ r.ro.map (·.sec) := by
        rw [o1]; exact List.mem_filter.mpr ⟨(hm s).mpr hs, by simp [ha, hw]⟩
      obtain ⟨p, hp, e⟩ := List.mem_map.mp this
      exact ⟨p, List.mem_append_left _ hp, e⟩
    · have : s ∈ r.rw.map (·.sec) := by
        rw [o2]; exact List.mem_filter.mpr ⟨(hm s).mpr hs, by simp [ha, hw]⟩
      obtain ⟨p, hp, e⟩ := List.mem_map.mp this
      exact ⟨p, List.mem_append_right _ hp, e⟩
  · have rwmem : ∀ p ∈ r.rw, p.sec ∈ secs ∧ p.sec.alloc = true ∧ p.sec.write = true := by
      intro p hp
      have : p.sec ∈ r.rw.map (·.sec) := List.mem_map_of_mem hp
      rw [o2] at this
      obtain ⟨m1, m2⟩ := List.mem_filter.mp this
      simp only [Bool.and_eq_true] at m2
      exact ⟨(hm _).mp m1, m2⟩
    have rwsorted : r.rw.Pairwise fun p q => rank p.sec ≤ rank q.sec := by
      have : (r.rw.map (·.sec)).Pairwise fun a b => rank a ≤ rank b := by
        rw [o2]; exact hsorted.filter _
      exact (List.pairwise_map (f := Placed.sec) (R := fun a b => rank a ≤ rank b)).mp this
    intro p hp hty
    obtain ⟨i, hi⟩ := List.getElem?_of_mem hp
    refine o7 i p hi hty ?_
    intro j q hj hq
    by_cases hq1 : q.sec.ty = .nobits
    · rcases hq2 : q.sec.tls with _ | _
      · exfalso
        obtain ⟨m1, m2, m3⟩ := rwmem p hp
        obtain ⟨n1, n2, n3⟩ := rwmem q (List.mem_of_getElem? hq)
        have hpr := rank_contents _ m2 m3 (hexec _ m1 m2 m3) hty (fun hb => hty (hbss _ m1 hb))
        have hqr := rank_zeroed _ n2 n3 (hexec _ n1 n2 n3) hq1 (by
          by_cases hb : q.sec.name = ".bss"
          · exact Or.inl hb
          · right
            intro e he hne
            have hnot := hname _ n1 n2 n3 hq1 hq2
            rw [← hne] at hnot hb
            have key : ∀ e ∈ ranks, e.1 = ".bss" ∨ e.1 ∈ [".note.gnu.property", ".dynsym", ".dynstr",
              ".hash", ".gnu.hash", ".rela.dyn", ".init", ".text", ".fini", ".plt.got", ".rodata",
              ".eh_frame_hdr", ".eh_frame", ".tdata", ".tbss", ".preinit_array", ".init_array",
              ".fini_array", ".data.rel.ro", ".bss.rel.ro", ".dynamic", ".got", ".data"] := by decide
            rcases key e he with k | k
            · exact hb k
            · exact hnot k)
        have hle : rank q.sec ≤ rank p.sec := by
          obtain ⟨li, ei⟩ := List.getElem?_eq_some_iff.mp hi
          obtain ⟨lj, ej⟩ := List.getElem?_eq_some_iff.mp hq
          have := List.pairwise_iff_getElem.mp rwsorted j i lj li hj
          rwa [ei, ej] at this
        omega
      · exact Or.inr (Or.inl ⟨hq2, hq1⟩)
    · exact Or.inl hq1

/-! ## Cases -/

def text : Sec := ⟨".text", .progbits, true, false, true, false, 100, 100, 16⟩
def rodata : Sec := ⟨".rodata", .progbits, true, false, false, false, 10, 10, 8⟩
def tdata : Sec := ⟨".tdata", .progbits, true, true, false, true, 24, 24, 8⟩
def tbss : Sec := ⟨".tbss", .nobits, true, true, false, true, 40, 0, 16⟩
def got : Sec := ⟨".got", .progbits, true, true, false, false, 16, 16, 8⟩
def data : Sec := ⟨".data", .progbits, true, true, false, false, 50, 50, 32⟩
def bss : Sec := ⟨".bss", .nobits, true, true, false, false, 9000, 0, 64⟩

/-- Addresses and places in the file. -/
def shown (secs : List Sec) : Option (List (Nat × Nat) × List (Nat × Nat) × Nat × Nat) :=
  match layout 0x400000 0x1000 400 secs with
  | .error _ => none
  | .ok r => some (r.ro.map (fun p => (p.addr, p.off)), r.rw.map (fun p => (p.addr, p.off)),
      r.plan.address, r.plan.protectionEnd)

example : shown [text, rodata, tdata, tbss, got, data, bss] =
    some ([(0x400190, 0x190), (0x4001f8, 0x1f8)],
      [(0x401000, 0x1000), (0x401020, 0x1020), (0x401018, 0x1018), (0x402000, 0x2000), (0x402040, 0x2040)],
      0x401000, 0x402000) := by decide +kernel

example : (∀ s ∈ [text, rodata, tdata, tbss, got, data, bss], Sized s ∧ Fits 0x400000 s ∧
    (s.alloc = true → s.write = false → s.ty ≠ .nobits)) := by
  unfold Sized Fits
  decide +kernel

example : Ordered [bss, data, text, got, tbss, tdata, rodata] [text, rodata, tdata, tbss, got, data, bss] :=
  ⟨by decide +kernel, by decide +kernel⟩

example : ∀ s ∈ [bss, data, text, got, tbss, tdata, rodata],
    (s.alloc = true → s.write = true → s.exec = false) ∧
    (s.alloc = true → s.write = true → s.ty = .nobits → s.tls = false → s.name = ".bss") ∧
    (s.name = ".bss" → s.ty = .nobits) := by decide +kernel

/-! ## Where it does not hold -/

/-- Memory that programs write and execute, to be zeroed: in the order of the linker it comes before
`.data`, whose contents are then not put at its address: they are at 0x1000 in the file, which is mapped
to 0x401000, and `.data` is at 0x402000. -/
theorem C111_jit_counterexample :
    let jit : Sec := ⟨".jit", .nobits, true, true, true, false, 4096, 0, 32⟩
    ([text, jit, data].map rank).Pairwise (· ≤ ·) ∧
    shown [text, jit, data] =
      some ([(0x400190, 0x190)], [(0x401000, 0x1000), (0x402000, 0x1000)], 0, 0) := by
  decide +kernel

/-- Code that programs write is in a segment that cannot be executed. -/
theorem C111_exec_counterexample :
    let wtext : Sec := ⟨".wtext", .progbits, true, true, true, false, 64, 64, 16⟩
    (match layout 0x400000 0x1000 400 [text, wtext, data] with
      | .error _ => none
      | .ok r => some (r.rw.map (·.sec.exec), r.rwSegment.exec)) = some ([true, false], false) := by
  decide +kernel

/-- The page on which the read-only region begins also holds a section that programs write, if that comes
first: here 64 bytes at 0x401000, and the region begins at 0x401040. -/
theorem C111_page_counterexample :
    let wtext : Sec := ⟨".wtext", .progbits, true, true, true, false, 64, 64, 16⟩
    ([text, wtext, tdata, data].map rank).Pairwise (· ≤ ·) ∧
    shown [text, wtext, tdata, data] =
      some ([(0x400190, 0x190)], [(0x401000, 0x1000), (0x401040, 0x1040), (0x402000, 0x2000)],
        0x401040, 0x402000) := by
  decide +kernel

/-- A read-only section that is to be zeroed gets no memory of its own: the next section has the same
address. -/
theorem C111_zero_counterexample :
    let zero : Sec := ⟨".zero", .nobits, true, false, false, false, 4096, 0, 8⟩
    let after : Sec := ⟨".zz", .progbits, true, false, false, false, 8, 8, 8⟩
    ([text, zero, after].map rank).Pairwise (· ≤ ·) ∧
    shown [text, zero, after] = some ([(0x400190, 0x190), (0x4001f8, 0x1f8), (0x4001f8, 0x1f8)], [], 0, 0) := by
  decide +kernel

/-- An alignment of 8 MiB is not kept. -/
theorem C111_align_counterexample :
    shown [⟨".big", .progbits, true, false, false, false, 8, 8, 0x800000⟩] =
      some ([(0xc00000, 0x800000)], [], 0, 0) := by
  decide +kernel

end Nature.Layout
