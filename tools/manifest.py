#!/usr/bin/env python3
"""Writes /verif/MANIFEST.json. Theorem names are collected from lean/Verif/Properties by their C-number."""
import json, re, pathlib
root = pathlib.Path(__file__).resolve().parent.parent
names = {}
for f in sorted((root / 'lean/Verif/Properties').glob('*.lean')):
    ns = []
    for line in f.read_text().splitlines():
        m = re.match(r'namespace (\S+)', line)
        if m: ns.append(m[1])
        m = re.match(r'end (\S+)', line)
        if m and ns and ns[-1] == m[1]: ns.pop()
        m = re.match(r'(?:theorem|lemma) (C(\d+)_\S+)', line)
        if m: names.setdefault('C' + m[2], []).append('.'.join(ns) + '.' + m[1])
full = {n.rsplit('.', 1)[1]: n for ns in names.values() for n in ns}
notes = json.loads((root / 'tools/notes.json').read_text())
claims = []
for l in (root / 'properties.jsonl').read_text().splitlines():
    pid = json.loads(l)['id']
    st, note, *also = notes.get(pid, ['partial', 'not yet formalised'])
    if pid not in names: st, note = 'partial', 'not yet formalised; ' + note
    claims.append({'property': pid, 'status': st, 'theorems': names.get(pid, []) + [full[x] for x in (also[0] if also else [])], 'note': note})
(root / 'MANIFEST.json').write_text(json.dumps({'claims': claims}, indent=1, ensure_ascii=False) + '\n')
print(sum(c['status'] == 'proved' for c in claims), 'proved of', len(claims))
# Verif.lean
mods = sorted(str(p.relative_to(root / 'lean').with_suffix('')).replace('/', '.') for p in (root / 'lean/Verif').rglob('*.lean'))
(root / 'lean/Verif.lean').write_text(''.join(f'import {m}\n' for m in mods))
# axiom check file
(pathlib.Path('/tmp/axioms.lean')).write_text('import Verif\n' + ''.join(f'#print axioms {n}\n' for n in sorted({n for c in claims for n in c['theorems']})))
