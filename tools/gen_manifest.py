#!/usr/bin/env python3
"""Regenerate MANIFEST.json: every property theorem is named Cnn_... in a file under lean/Verif/Props."""
import re, json, glob, os, sys
root = os.path.dirname(os.path.dirname(os.path.abspath(__file__)))
props = [json.loads(l) for l in open(root + '/properties.jsonl')]
found = {}
for f in sorted(glob.glob(root + '/lean/Verif/Props/*.lean')):
    ns = []
    for line in open(f):
        m = re.match(r'namespace\s+(\S+)', line)
        if m: ns += [m.group(1)]
        m = re.match(r'end\s+(\S+)', line)
        if m and ns and ns[-1] == m.group(1): ns.pop()
        m = re.match(r'theorem\s+((?:\w+\.)*(C\d\d+)_\w+)', line)
        if m: found.setdefault(m.group(2), []).append('.'.join(ns + [m.group(1)]))
notes = json.load(open(root + '/tools/notes.json')) if os.path.exists(root + '/tools/notes.json') else {}
claims = []
for p in props:
    i = p['id']
    n = notes.get(i, {})
    th = found.get(i, [])
    if n.get('status'): st = n['status']
    elif any(t.endswith('_partial') or t.endswith('_counterexample') for t in th): st = 'partial'
    elif th: st = 'proved'
    else: st = 'todo'
    if st == 'todo':
        print('no theorem yet:', i, p['title'], file=sys.stderr)
        continue
    claims.append({'property': i, 'status': st, 'theorems': th, 'note': n.get('note', '')})
json.dump({'claims': claims}, open(root + '/MANIFEST.json', 'w'), indent=1, ensure_ascii=False)
print(len(claims), 'claims', sum(len(c['theorems']) for c in claims), 'theorems')
