"""Writes /verif/MODELLED.md: which lines of /repo are cited by which Lean module."""
import re, glob, os, sys
repo = '/repo'
files = [f for d in ('source', 'include/adaflo', 'applications') for f in sorted(glob.glob(f'{repo}/{d}/*'))]
base = {os.path.basename(f): f for f in files}
cited = {}
for m in sorted(glob.glob('/verif/lean/Verif/**/*.lean', recursive=True)):
    mod = m[len('/verif/lean/Verif/'):-5]
    src = open(m).read()
    for t in re.finditer(r'([\w]+\.(?:cc|h)):((?:\d+(?:-\d+)?)(?:(?:, | and |,)\d+(?:-\d+)?)*)', src):
        for r in re.findall(r'\d+(?:-\d+)?', t[2]):
            x, y = (r.split('-') * 2)[:2]
            if t[1] in base and int(x) <= int(y): cited.setdefault(t[1], []).append((int(x), int(y), mod))
    last = None
    # comments only; a range belongs to the file named last before it in the module
    for com in re.findall(r'/-[-!].*?-/|--[^\n]*', src, re.S):
        for t in re.finditer(r'([a-z_]+\.(?:cc|h))\b|(?<![\w.])(\d{2,4})-(\d{2,4})(?![\w.])|(?:lines? |[a-z]:)(\d{2,4})(?![-\d])', com):
            if t[1]:
                follows = re.match(r'\)?[:;,]? ?(?:lines? )?[\d]', com[t.end():]) or ' ' in com[t.end():t.end()+2] and re.match(r':? [`\w:]+(?: [`\w:]+)? \d', com[t.end():])
                if t[1] in base and (last is None or follows or '/-!' in com): last = t[1]
            elif last:
                x, y = (int(t[2]), int(t[3])) if t[2] else (int(t[4]), int(t[4]))
                if x <= y <= len(open(base[last]).read().split('\n')): cited.setdefault(last, []).append((x, y, mod))
out = ['# Modelled code', '', 'Generated by tools/coverage.py: the lines of /repo cited by the Lean modules (lines / code lines), and the modules. '
  'Lines outside these ranges are not modelled.', '']
tot = 0; totc = 0
for f in files:
    n = os.path.basename(f)
    lines = open(f).read().split('\n')
    code = {i + 1 for i, l in enumerate(lines) if l.strip() and not l.strip().startswith(('//', '*', '/*', '#include'))}
    cov = set()
    for a, b, _ in cited.get(n, []): cov |= set(range(a, b + 1))
    c = len(cov & code); tot += len(code); totc += c
    rs = []; 
    for i in sorted(cov):
        if rs and i <= rs[-1][1] + 1: rs[-1][1] = i
        else: rs.append([i, i])
    mods = sorted({m for _, _, m in cited.get(n, [])})
    out.append(f'* **{f[len(repo)+1:]}** ({c}/{len(code)}): ' + (', '.join(f'{a}-{b}' if a != b else str(a) for a, b in rs) if rs else 'not modelled') + (' — ' + ', '.join(mods) if mods else ''))
    if '-u' in sys.argv:
        miss = []
        for i in sorted(code - cov):
            if miss and i <= miss[-1][1] + 3: miss[-1][1] = i
            else: miss.append([i, i])
        print(n, c, len(code), [tuple(x) for x in miss if x[1] - x[0] > 8])
out.append(f'\nTotal: {totc} of {tot} code lines.')
open('/verif/MODELLED.md', 'w').write('\n'.join(out) + '\n')
print(out[-1])
