import Verif.IoBuf.Lemmas
/-! C34: the in-memory buffer is a queue of bytes. -/
namespace Nature.IoBuf
open Nature Nature.Vec

/-- A program that starts with an empty buffer and no vectors. -/
def start : World := ⟨[], newBuf, []⟩

/-- **C34 (partial).** Every program of writes, reads, `read_all`s and truncates of any
sizes, in any order, with any vectors, observes what the same program on plain lists
observes: the bytes come out in order, counts and EOF are right, truncate keeps exactly
the requested prefix of the unread bytes.  At the end every vector the program holds,
including the results of `read_all`, shows the list it should: later writes never
overwrite them and overwriting them never changes what is in the buffer.  Missing:
buffers that 2^31 - 1 or more bytes are written to (counterexample below). -/
theorem C34_queue_partial (ops : List Op) (h : totalWritten ⟨[], []⟩ ops + 1 < 2 ^ 31) :
    ∃ w, run start ops = .ok (w, (specRun ⟨[], []⟩ ops).2) ∧
      w.vecs.length = (specRun ⟨[], []⟩ ops).1.vecs.length ∧
      ∀ (i : Nat) v xs, w.vecs[i]? = some v → (specRun ⟨[], []⟩ ops).1.vecs[i]? = some xs → Shows w.mem v xs := by
  have h0 : R start ⟨[], []⟩ 0 :=
    ⟨⟨[], ⟨rfl, by simp⟩, rfl⟩, ⟨by decide, by intro i hi; simp [start, newBuf] at hi⟩, by decide, rfl, by simp [start], by simp [start],
      by simp [start]⟩
  obtain ⟨w, t, e, hr⟩ := run_refines h0 ops (by omega)
  exact ⟨w, e, hr.vlen, hr.vshow⟩

theorem append_huge {m : Mem} {esz : Nat} {d s : Vec} (h : d.len + s.len > d.cap) (h31 : 2 ^ 31 ≤ d.len + s.len + 1) :
    append m esz d s = .ub := by
  unfold append
  rw [if_pos h]
  unfold grow
  rw [if_pos h31]
  rfl

/-- **C34 counterexample**: the capacity of an append is passed as a C `int`
(vec.c:7, 338), so a buffer does not survive a write that takes it to 2^31 - 1 bytes. -/
theorem C34_huge_counterexample :
    ∃ ops, run start ops = .ub := by
  refine ⟨[.vec (List.replicate (2 ^ 31) [0]), .write 0], ?_⟩
  generalize hk : (2 ^ 31 : Nat) = k
  have : append [List.replicate k [0]] 1 newBuf.buf ⟨some 0, 0, k, k⟩ = .ub :=
    append_huge (by show 0 + k > 0; omega) (by show 2 ^ 31 ≤ 0 + k + 1; omega)
  simp only [run, step, start, List.length_replicate, List.nil_append, Res.bind_ok, List.length_nil, List.getElem?_cons_zero]
  simp only [write, this, Res.bind_ub]

/-- Partial reads, a write in between, truncation, end of file, and a result of
`read_all` that later writes leave alone. -/
def demo : List Op :=
  [.vec [[1], [2], [3], [4]], .write 0, .vec [[0], [0]], .read 1, .writeByte [5], .set 0 0 [9], .truncate 2, .write 0, .readAll,
   .write 0, .read 1, .len, .empty, .truncate 3, .truncate 0, .read 1, .readAll]

example : totalWritten ⟨[], []⟩ demo + 1 < 2 ^ 31 := by decide
example : specRun ⟨[], []⟩ demo =
    (⟨[], [[[9], [2], [3], [4]], [[9], [2]], [[3], [4], [9], [2], [3], [4]], []]⟩,
     [.unit, .nat 4, .unit, .nat 2, .unit, .unit, .unit, .nat 4, .bytes [[3], [4], [9], [2], [3], [4]], .nat 4, .nat 2, .nat 2,
      .bool false, .panic, .unit, .eof, .bytes []]) := by decide

end Nature.IoBuf
