"""Writes /verif/AXIOMS.md: the axioms of every theorem named in MANIFEST.json (as reported by Lean)."""
import json, subprocess, re, tempfile, os
man = json.load(open('/verif/MANIFEST.json'))
names = [t for c in man['claims'] for t in c['theorems']]
src = 'import Verif\n' + ''.join(f'#print axioms {n}\n' for n in names)
f = tempfile.NamedTemporaryFile('w', suffix='.lean', delete=False); f.write(src); f.close()
out = subprocess.run(['lake', 'env', 'lean', f.name], cwd='/verif/lean', capture_output=True, text=True).stdout
os.unlink(f.name)
out = re.sub(r'\n\s+', ' ', out)
res = {}
for l in out.splitlines():
    m = re.match(r"'(.+)' depends on axioms: \[(.*)\]", l)
    if m: res[m[1]] = m[2]
    m = re.match(r"'(.+)' does not depend on any axioms", l)
    if m: res[m[1]] = 'none'
assert set(res) == set(names), set(names) ^ set(res)
groups = {}
for n in names: groups.setdefault(res[n], []).append(n)
with open('/verif/AXIOMS.md', 'w') as g:
    g.write('# Axioms of the claimed theorems\n\nGenerated by tools/axioms.py from `#print axioms`.\n')
    for k in sorted(groups, key=len):
        g.write(f'\n## {k}\n\n' + ''.join(f'* {n}\n' for n in groups[k]))
print({k: len(v) for k, v in groups.items()})
