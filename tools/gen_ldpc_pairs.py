#!/usr/bin/env python3
"""Writes lean/Verif/Lemmas/LdpcPairs*.lean: one kernel evaluation per pair of blocks (`pairTest`), in files small enough for the memory of
the build machine. Each file imports the previous one, so that they are built one at a time."""
import os
out = os.path.join(os.path.dirname(__file__), "..", "lean", "Verif", "Lemmas")
pairs = [(a, b) for b in range(16) for a in range(b + 1)]
files = [("LdpcPairsTC", [(c, a, b) for c in ("TC128", "TC256", "TC512") for b in range(8) for a in range(b + 1)])]
for i in range(0, 136, 34):
    files.append((f"LdpcPairsTM2048P{i // 34 + 1}", [("TM2048", a, b) for a, b in pairs[i:i + 34]]))
for i in range(0, 136, 6):
    files.append((f"LdpcPairsTM8192P{i // 6 + 1:02d}", [("TM8192", a, b) for a, b in pairs[i:i + 6]]))
prev = "LdpcErrors"
for name, tests in files:
    with open(os.path.join(out, name + ".lean"), "w") as f:
        f.write(f"import Verif.Lemmas.{prev}\n\n")
        f.write("/-! Kernel evaluations of `LdpcCode.pairTest` (tools/gen_ldpc_pairs.py). -/\nnamespace Sia\nnamespace LdpcCode\n\n")
        for c, a, b in tests:
            f.write(f"theorem pair_{c}_{a}_{b} : pairTest .{c} {a} {b} = true := by decide +kernel\n")
        f.write("\nend LdpcCode\nend Sia\n")
    prev = name
with open(os.path.join(out, "LdpcPairs.lean"), "w") as f:
    f.write(f"import Verif.Lemmas.{prev}\n\n")
    f.write("/-! The evaluations together (tools/gen_ldpc_pairs.py). -/\nnamespace Sia\nnamespace LdpcCode\n\n")
    for c, n in (("TC128", 8), ("TC256", 8), ("TC512", 8), ("TM2048", 16), ("TM8192", 16)):
        f.write(f"theorem pairs_{c} : ∀ b' < {n}, ∀ b ≤ b', pairTest .{c} b b' = true\n")
        for b in range(n):
            for a in range(b + 1):
                f.write(f"  | {b}, _, {a}, _ => pair_{c}_{a}_{b}\n")
        if n == 16:
            f.write("  | _ + 16, h, _, _ => absurd h (by omega)\n")
        f.write("\n")
    f.write("end LdpcCode\nend Sia\n")
