"""Computes Lemmas/LdpcInverse.lean: which checks add up to the first bit of a parity block (apart from data bits)."""
import sys, os
sys.path.insert(0, os.path.dirname(os.path.abspath(__file__)))
from gen_ldpc import CODES, checks
def inverse(rows, Q, k):
    ch = checks(rows, Q); nv = len(rows[0])*Q; n = nv-k
    R = []
    for i, c in enumerate(ch):
        a = 0
        for v in c:
            if v >= k: a ^= 1 << (v-k)
        R.append(a | 1 << (n+i))
    for col in range(n):
        p = next(i for i in range(col, n) if R[i] >> col & 1)
        R[col], R[p] = R[p], R[col]
        pr = R[col]
        for i in range(n):
            if i != col and R[i] >> col & 1: R[i] ^= pr
    out = []
    for p in range(n//Q):
        s = R[p*Q] >> n
        out.append([int(''.join(str(s >> (r*Q+i) & 1) for i in range(Q)), 2) for r in range(len(rows))])
    return out
print('''import Verif.Model.LdpcCcsds

/-! Generated by tools/gen_ldpc_inverse.py: for each code and each block of parity bits (punctured ones included) the checks that add up to
the first bit of the block, apart from data bits. That they do is checked by the kernel in Lemmas/LdpcUnique.lean. -/
namespace Sia
namespace LdpcCode

/-- Per parity block and block row the selected checks, first check most significant. -/
def inverseRows : LdpcCode → List (List Nat)''')
for name, rows, Q, k, tx in CODES:
    print('  | .%s => [' % name)
    ls = []
    for row in inverse(rows, Q, k):
        items = ['0x%X' % x for x in row]
        per = max(1, 120 // (Q//4+4))
        ls.append('      [' + ',\n       '.join(', '.join(items[i:i+per]) for i in range(0, len(items), per)) + ']')
    print(',\n'.join(ls) + ']')
print('''
end LdpcCode
end Sia''')
