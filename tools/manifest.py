#!/usr/bin/env python3
"""Regenerates MANIFEST.json and lean/Verif.lean from the property files (theorem names C<nn>_...)."""
import re, json, glob, os, collections
root = os.path.dirname(os.path.dirname(os.path.abspath(__file__)))
thms = collections.OrderedDict()
for f in sorted(glob.glob(root + '/lean/Verif/Props/*.lean')):
    ns = []
    for line in open(f):
        m = re.match(r'namespace (\S+)', line)
        if m: ns.append(m.group(1))
        m = re.match(r'end (\S+)', line)
        if m and ns and ns[-1] == m.group(1): ns.pop()
        m = re.match(r'(?:protected )?theorem (C(\d\d+)_\w+)', line)
        if m: thms.setdefault('C' + m.group(2), []).append('.'.join(ns + [m.group(1)]))
notes = json.load(open(root + '/tools/notes.json'))
claims = []
for line in open(root + '/properties.jsonl'):
    p = json.loads(line)['id']
    t = thms.get(p, [])
    n = notes.get(p, {})
    status = n.get('status') or ('partial' if (not t or any(x.endswith('_partial') for x in t)) else 'proved')
    note = n.get('note', '')
    if not t and not note: note = 'not modelled yet'
    claims.append({'property': p, 'status': status, 'theorems': t, 'note': note})
json.dump({'claims': claims}, open(root + '/MANIFEST.json', 'w'), indent=1)
mods = []
for d, _, fs in os.walk(root + '/lean/Verif'):
    for f in fs:
        if f.endswith('.lean'):
            mods.append(os.path.relpath(os.path.join(d, f), root + '/lean')[:-5].replace('/', '.'))
open(root + '/lean/Verif.lean', 'w').write(''.join('import %s\n' % m for m in sorted(mods)))
print({s: sum(c['status'] == s for c in claims) for s in ('proved', 'partial', 'not_applicable')})
