"""Computes the generator constants of Model/LdpcCcsds.lean from the parity-check matrices (prints Lean text)."""
import sys
TC = {16: [[[0,7],[2],[14],[6],[],[0],[13],[0]], [[6],[0,15],[0],[1],[0],[],[0],[7]],
           [[4],[1],[0,15],[14],[11],[0],[],[3]], [[0],[1],[9],[0,13],[14],[1],[0],[]]],
      32: [[[0,31],[15],[25],[0],[],[20],[12],[0]], [[28],[0,30],[29],[24],[0],[],[1],[20]],
           [[8],[0],[0,28],[1],[29],[0],[],[21]], [[18],[30],[0],[0,30],[25],[26],[0],[]]],
      64: [[[0,63],[30],[50],[25],[],[43],[62],[0]], [[56],[0,61],[50],[23],[0],[],[37],[26]],
           [[16],[0],[0,55],[27],[56],[0],[],[43]], [[35],[56],[62],[0,11],[58],[3],[0],[]]]}
TH = [3,0,1,2,2,3,0,1]
PHI = {512: [[16,103,105,0,50,29,115,30],[0,53,74,45,47,0,59,102],[0,8,119,89,31,122,1,69],[0,35,97,112,64,93,99,94]],
       2048: [[108,126,238,481,96,28,59,225],[0,375,436,350,260,84,318,382],[0,219,16,263,415,403,184,279],[0,312,503,388,48,7,185,328]]}
PROTO = [[[],[],[0],[],[0,1]],[[0],[0],[],[0],[2,3,4]],[[0],[5,6],[],[7,8],[0]]]
def tm_rows(M):
    out = []
    for a in range(3):
        for j in range(4):
            row = []
            for b in range(5):
                for jj in range(4):
                    fs = []
                    for k in PROTO[a][b]:
                        if k == 0:
                            if jj == j: fs.append(0)
                        elif jj == (TH[k-1]+j) % 4: fs.append(PHI[M][j][k-1])
                    row.append(fs)
            out.append(row)
    return out
def checks(rows, Q):
    return [[b*Q+(i+f)%Q for b, fs in enumerate(row) for f in fs] for row in rows for i in range(Q)]
def solve(rows, Q, k):
    ch = checks(rows, Q); nv = len(rows[0])*Q; n = nv-k
    R = []
    for c in ch:
        a = 0
        for v in c: a ^= 1 << (v-k if v >= k else n+v)
        R.append(a)
    for col in range(n):
        p = next(i for i in range(col, n) if R[i] >> col & 1)
        R[col], R[p] = R[p], R[col]
        pr = R[col]
        for i in range(n):
            if i != col and R[i] >> col & 1: R[i] ^= pr
    return [x >> n for x in R]
def gen(rows, Q, k, tx):
    g = solve(rows, Q, k)
    out = []
    for d in range(k//Q):
        out.append([int(''.join(str(g[p*Q+j] >> (d*Q) & 1) for j in range(Q)), 2) for p in range((tx-k)//Q)])
    return out
CODES = [('TC128', TC[16], 16, 64, 128), ('TC256', TC[32], 32, 128, 256), ('TC512', TC[64], 64, 256, 512),
         ('TM2048', tm_rows(512), 128, 1024, 2048), ('TM8192', tm_rows(2048), 512, 4096, 8192)]
if __name__ == '__main__':
    print('def generator : LdpcCode → List (List Nat)')
    for name, rows, Q, k, tx in CODES:
        g = gen(rows, Q, k, tx)
        fmt = '0x%%0%dX' % (Q//4)
        per = max(1, 120 // (Q//4+4))
        print('  | .%s => [' % name)
        ls = []
        for row in g:
            items = [fmt % x for x in row]
            lines = [', '.join(items[i:i+per]) for i in range(0, len(items), per)]
            ls.append('      [' + ',\n       '.join(lines) + ']')
        print(',\n'.join(ls) + ']')
